import Verif.Model.Basic

/-!
# Model of `src/settings.py`: the dictionary `SETTINGS` and its setters

`Model/Basic.lean` reads the settings through the record `Settings`; this file models the dictionary itself, whose
values are arbitrary Python objects.
-/

namespace PythonDice

/-- A Python object as far as `settings_set` can tell objects apart. -/
inductive PyAny
  | int (n : ℤ)
  | bool (b : Bool)
  | str (s : String)
  | callable (id : ℕ)
  | other (id : ℕ)
  deriving DecidableEq, Repr

/-- A dictionary with string keys, insertion ordered. -/
abbrev PyDict := List (String × PyAny)

/-- `d[k]`. -/
def PyDict.get? (d : PyDict) (k : String) : Option PyAny := d.lookup k

/-- `d[k] = v`: replace in place, or append. -/
def PyDict.set : PyDict → String → PyAny → PyDict
  | [], k, v => [(k, v)]
  | (k', v') :: d, k, v => if k' = k then (k', v) :: d else (k', v') :: PyDict.set d k v

/-- src/settings.py:4-15 `DEFAULT_SETTINGS`; callable 0 is the builtin `print`. -/
def defaultDict : PyDict :=
  [("RV_TRUNC", .bool false), ("RV_IGNORE_ZERO_PROBS", .bool false), ("DEFAULT_OUTPUT_WIDTH", .int 180),
   ("DEFAULT_PRINT_FN", .callable 0), ("INTERNAL_CURR_DEPTH", .int 0), ("INTERNAL_CURR_DEPTH_WARNING_PRINTED", .bool false),
   ("position order", .str "highest first"), ("explode depth", .int 2), ("maximum function depth", .int 10)]

/-- `isinstance(value, int) and value > 0` (`bool` is a subclass of `int`). -/
def PyAny.isPosInt : PyAny → Bool
  | .int n => decide (0 < n)
  | .bool b => b
  | _ => false

/-- `s.lower()` on the characters that matter here (ASCII). -/
def lowerChars (s : String) : List Char := s.toList.map Char.toLower

/-- src/settings.py:28-31: the value stored for a boolean setting.  `str.lower` is only compared with 'true' and
'false'; no character outside ASCII lowers to a letter of these words, so the ASCII `toLower` decides the same. -/
def boolValue : PyAny → Except Err PyAny
  | .str s => 
    if lowerChars s = "true".toList ∨ lowerChars s = "false".toList then .ok (.bool (decide (lowerChars s = "true".toList)))
    else .error .assertion
  | .bool b => .ok (.bool b)
  | _ => .error .assertion

/-- src/settings.py:20-38 the checks of `settings_set`: the value to store, or AssertionError.  A name that is not a string
equals none of the names tested and behaves like an unknown string. -/
def checkedValue (name : String) (value : PyAny) : Except Err PyAny :=
  if name = "position order" then
    if value = .str "highest first" ∨ value = .str "lowest first" then .ok value else .error .assertion
  else if name = "explode depth" then
    if value.isPosInt then .ok value else .error .assertion
  else if name = "maximum function depth" then
    if value.isPosInt then .ok value else .error .assertion
  else if name = "RV_TRUNC" ∨ name = "RV_IGNORE_ZERO_PROBS" then boolValue value
  else if name = "DEFAULT_OUTPUT_WIDTH" then
    if value.isPosInt then .ok value else .error .assertion
  else if name = "DEFAULT_PRINT_FN" then
    match value with
    | .callable id => .ok (.callable id)
    | _ => .error .assertion
  else .error .assertion

/-- src/settings.py:19-39 `settings_set(name, value)`: result and the new dictionary. -/
def settingsSet (name : String) (value : PyAny) (d : PyDict) : Except Err Unit × PyDict :=
  match checkedValue name value with
  | .ok v => (.ok (), d.set name v)
  | .error e => (.error e, d)

/-- src/settings.py:42-44 `settings_reset()`: `clear` then `update`. -/
def settingsReset (_d : PyDict) : PyDict := defaultDict.foldl (fun d kv => d.set kv.1 kv.2) []

/-- src/decorators.py:142-158 writes these two internal settings. -/
def depthSet (depth : ℤ) (printed : Bool) (d : PyDict) : PyDict :=
  (d.set "INTERNAL_CURR_DEPTH" (.int depth)).set "INTERNAL_CURR_DEPTH_WARNING_PRINTED" (.bool printed)

/-- An int used as such: `True` counts as 1. -/
def PyAny.asInt? : PyAny → Option ℤ
  | .int n => some n
  | .bool b => some (if b then 1 else 0)
  | _ => none

/-- A bool. -/
def PyAny.asBool? : PyAny → Option Bool
  | .bool b => some b
  | _ => none

/-- A callable. -/
def PyAny.asFn? : PyAny → Option ℕ
  | .callable i => some i
  | _ => none

/-- The two orders of src/randvar.py:251. -/
def PyAny.asOrder? : PyAny → Option PosOrder
  | .str s => if s = "highest first" then some .highestFirst else if s = "lowest first" then some .lowestFirst else none
  | _ => none

/-- The record the rest of the model reads, if every setting is there with a value of the right kind. -/
def PyDict.record (d : PyDict) : Option Settings := do
  let trunc ← (d.get? "RV_TRUNC") >>= PyAny.asBool?
  let zero ← (d.get? "RV_IGNORE_ZERO_PROBS") >>= PyAny.asBool?
  let width ← (d.get? "DEFAULT_OUTPUT_WIDTH") >>= PyAny.asInt?
  let fn ← (d.get? "DEFAULT_PRINT_FN") >>= PyAny.asFn?
  let depth ← (d.get? "INTERNAL_CURR_DEPTH") >>= PyAny.asInt?
  let printed ← (d.get? "INTERNAL_CURR_DEPTH_WARNING_PRINTED") >>= PyAny.asBool?
  let order ← (d.get? "position order") >>= PyAny.asOrder?
  let explode ← (d.get? "explode depth") >>= PyAny.asInt?
  let maxDepth ← (d.get? "maximum function depth") >>= PyAny.asInt?
  return ⟨trunc, zero, width, fn, depth, printed, order, explode, maxDepth⟩

end PythonDice
