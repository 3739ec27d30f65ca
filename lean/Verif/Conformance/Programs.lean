import Verif.Props.Run

/-!
# The tests of the repository on programs: `test/parse_exec_test.py`

The text of each program goes through the model of the lexer, the parser and the resolver; then the Python program that the tree stands for
(`meanP`, the one that Python reads from the generated text by C62) is run.  The tests set RV_IGNORE_ZERO_PROBS (line 35), and use two sets of
flags (lines 12-17).  They run `safe_exec`, which differs from `unsafe_exec` in what it forbids.  The expected values are those of the tests.
`test_running` (lines 468-477) asks only that there is a result.

Left out: decimals (`test_floats`, `test_div`), which are outside the model, and the programs of lines 167-187, 196-255, 266-309 and 319-383, whose
enumerations are too large for the kernel.
-/

namespace PythonDice.Conformance

open Spec Compiler Lexer

/-- The tree of a program without errors. -/
def treeOf (s : List Char) : Option Block :=
  match Yacc.parse Yacc.tableData (tokens Char.isDigit s) with
  | some ⟨.ok (some (.block b)), []⟩ => some b
  | _ => none

/-- What a test compares: a number, or outcomes and weights. -/
inductive Shown
  | num (n : ℤ)
  | rv (vals : List ℤ) (probs : List ℕ)
  | seq (s : List ℤ)
  | blank
  deriving DecidableEq

/-- The compared part of an output. -/
def shownOf : Obj → Shown
  | .num n => .num n
  | .rv r => .rv r.vals r.probs
  | .seq s => .seq s
  | .blank _ => .blank

/-- test/parse_exec_test.py:11-33 `pipeline`: the outputs of a program, `none` if it fails. -/
def pipeline (fl : Flags) (s : List Char) : Option (List Shown) :=
  match compileWith Yacc.tableData fl Char.isDigit s, treeOf s with
  | .ok _, some b => match (Exec.unsafeExec 30 (meanP (passFlags fl b).style b) { settings := { rvIgnoreZeroProbs := true } }).1 with
    | .ok os => some (os.map fun o => shownOf o.1)
    | .error _ => none
  | _, _ => none

/-- `compile` uses the tables that `pipeline` uses. -/
example (fl : Flags) (s : List Char) : compile fl Char.isDigit s = compileWith Yacc.tableData fl Char.isDigit s := by
  rw [compile, Yacc.tables_eq]

/-- test/parse_exec_test.py:12-13: version 1, no flags -/
def v1 : Flags := {}

/-- test/parse_exec_test.py:14-15: version 2 -/
def v2 : Flags := { nonLocal := true, opOnInt := true }

/-- test/parse_exec_test.py:56-58: `test_ands_and_ors`, `test_ands_and_orsv2` -/
example : let s := "\n\
    output ((1d4-1) | (1d2-1))\n\
    ".toList
    let r := some [.rv [0, 1] [1, 7]]
    pipeline v1 s = r ∧ pipeline v2 s = r := by decide +kernel

/-- test/parse_exec_test.py:59-61: `test_ands_and_ors`, `test_ands_and_orsv2` -/
example : let s := "\n\
    output {2}&(1d2-1)\n\
    ".toList
    let r := some [.rv [0, 1] [1, 1]]
    pipeline v1 s = r ∧ pipeline v2 s = r := by decide +kernel

/-- test/parse_exec_test.py:62-64: `test_ands_and_ors`, `test_ands_and_orsv2` -/
example : let s := "\n\
    output {2,-2}&(1d2-1)\n\
    ".toList
    let r := some [.rv [0] [1]]
    pipeline v1 s = r ∧ pipeline v2 s = r := by decide +kernel

/-- test/parse_exec_test.py:65-67: `test_ands_and_ors`, `test_ands_and_orsv2` -/
example : let s := "\n\
    output {2}&{2,-1}\n\
    ".toList
    let r := some [.num 1]
    pipeline v1 s = r ∧ pipeline v2 s = r := by decide +kernel

/-- test/parse_exec_test.py:68-70: `test_ands_and_ors`, `test_ands_and_orsv2` -/
example : let s := "\n\
    output {2,-2}&{2,-2}\n\
    ".toList
    let r := some [.num 0]
    pipeline v1 s = r ∧ pipeline v2 s = r := by decide +kernel

/-- test/parse_exec_test.py:71-73: `test_ands_and_ors`, `test_ands_and_orsv2` -/
example : let s := "\n\
    output {1,2,3}&1\n\
    ".toList
    let r := some [.num 1]
    pipeline v1 s = r ∧ pipeline v2 s = r := by decide +kernel

/-- test/parse_exec_test.py:74-76: `test_ands_and_ors`, `test_ands_and_orsv2` -/
example : let s := "\n\
    output 1d2&1d2\n\
    ".toList
    let r := some [.rv [1] [1]]
    pipeline v1 s = r ∧ pipeline v2 s = r := by decide +kernel

/-- test/parse_exec_test.py:77-79: `test_ands_and_ors`, `test_ands_and_orsv2` -/
example : let s := "\n\
    output {1}&1d2\n\
    ".toList
    let r := some [.rv [1] [1]]
    pipeline v1 s = r ∧ pipeline v2 s = r := by decide +kernel

/-- test/parse_exec_test.py:80-82: `test_ands_and_ors`, `test_ands_and_orsv2` -/
example : let s := "\n\
    output 1d2&{1}\n\
    ".toList
    let r := some [.rv [1] [1]]
    pipeline v1 s = r ∧ pipeline v2 s = r := by decide +kernel

/-- test/parse_exec_test.py:83-88: `test_ands_and_ors`, `test_ands_and_orsv2` -/
example : let s := "\n\
    output d-1\n\
    output d+1\n\
    A: 3d6\n\
    output d#A\n\
    ".toList
    let r := some [.rv [-1] [1], .rv [1] [1], .rv [1, 2, 3] [1, 1, 1]]
    pipeline v1 s = r ∧ pipeline v2 s = r := by decide +kernel

/-- test/parse_exec_test.py:89-91: `test_ands_and_ors`, `test_ands_and_orsv2` -/
example : let s := "\n\
    output 2 * 2 @ 2d2\n\
    ".toList
    let r := some [.rv [2, 4] [3, 1]]
    pipeline v1 s = r ∧ pipeline v2 s = r := by decide +kernel

/-- test/parse_exec_test.py:116-143: `test_conditionals`, `test_conditionalsv2` -/
example : let s := "\n\
    loop P over {1..3} {\n\
    \x20 loop PP over {5..6} {\n\
    \x20   output PP\n\
    \x20   output PP+10\n\
    \x20 }\n\
    \x20 output 3\n\
    \x20 output 4\n\
    \x20 if (P-1)/2 {\n\
    \x20   output 1003\n\
    \x20 } else if P-1 {\n\
    \x20   output 1002\n\
    \x20 } else {\n\
    \x20   output 1001\n\
    \x20 }\n\
    }\n\
    \n\
    P: 1\n\
    if (P-1)/2 {\n\
    \x20 output 1003\n\
    } else if P-1 {\n\
    \x20 output 1002\n\
    } else if P {\n\
    \x20 output 999\n\
    } else {\n\
    \x20 output 1001\n\
    }\n\
    ".toList
    let r := some [.num 5, .num 15, .num 6, .num 16, .num 3, .num 4, .num 1001, .num 5, .num 15, .num 6, .num 16, .num 3, .num 4, .num 1002, .num 5, .num 15, .num 6, .num 16, .num 3, .num 4, .num 1003, .num 999]
    pipeline v1 s = r ∧ pipeline v2 s = r := by decide +kernel

/-- test/parse_exec_test.py:188-195: `test_running`, `test_runningv2` -/
example : let s := "\n\
    function: if X:n in RESTRICT:s {\n\
    \x20 if X = RESTRICT { result: X }\n\
    \x20 result: d{}\n\
    }\n\
    output [if 3d6 in {3,5,7,9,11,13,15,17}] named \"3d6 if odd\"\n\
    output [if 3d6 in {4,6,8,10,12,14,16,18}] named \"3d6 if even\"\n\
    ".toList
    (pipeline v1 s).isSome = true ∧ (pipeline v2 s).isSome = true := by decide +kernel

/-- test/parse_exec_test.py:256-265: `test_running`, `test_runningv2` -/
example : let s := "\n\
    output 1d6 != 1d6\n\
    output 1d6 = 1d6\n\
    output 1d6 > 1d6\n\
    output 1d6 < 1d6\n\
    output 1d6 ^ 1d6\n\
    output 1d6 | 1d6\n\
    output 1d6 & 1d6\n\
    output (2d2-2)\n\
    ".toList
    (pipeline v1 s).isSome = true ∧ (pipeline v2 s).isSome = true := by decide +kernel

/-- test/parse_exec_test.py:310-314: `test_running`, `test_runningv2` -/
example : let s := "\n\
    A: 2d6\n\
    output 1d6 + 1d6 named \"hello[A][B ]\" \\ this is a comment function: test \\ output 1d6 + 1d6\n\
    output 1d6 + 1d6 named \"hello[A][B ]\"\n\
    ".toList
    (pipeline v1 s).isSome = true ∧ (pipeline v2 s).isSome = true := by decide +kernel

/-- test/parse_exec_test.py:315-318: `test_running`, `test_runningv2` -/
example : let s := "\n\
    A: 2d6\n\
    output 1\n\
    ".toList
    (pipeline v1 s).isSome = true ∧ (pipeline v2 s).isSome = true := by decide +kernel

/-- test/parse_exec_test.py:384-391: `test_running`, `test_runningv2` -/
example : let s := "\n\
    \\\n\
    \x20!\"#$%&'()*+,-./0123456789:;<=>?@ABCDEFGHIJKLMNOPQRSTUVWXYZ[\\\\]^_`abcdefghijklmnopqrstuvwxyz{|}~\n\
    \\\n\
    \\ !\"#$%&'()*+,-./0123456789:;<=>?@ABCDEFGHIJKLMNOPQRSTUVWXYZ[\\\\]^_`abcdefghijklmnopqrstuvwxyz{|}~ \\\n\
    \n\
    output 1d1\n\
    ".toList
    (pipeline v1 s).isSome = true ∧ (pipeline v2 s).isSome = true := by decide +kernel

/-- test/parse_exec_test.py:392-403: `test_running`, `test_runningv2` -/
example : let s := "\n\
    output {2*3..4}\n\
    Z__A_ : 2 + 3 * {2, {}} / 5\n\
    output Z__A_ \n\
    output 2d2\n\
    output 1\n\
    if 1 {if 1 {A:1 A:1}}\n\
    output 1\n\
    if 1=1 {A:1} else {A:2}\n\
    if 1=1 {A:1} else if 1=1 {A:2} else {A:3}\n\
    function: rand B:s name a {A:2}\n\
    ".toList
    (pipeline v1 s).isSome = true ∧ (pipeline v2 s).isSome = true := by decide +kernel

/-- test/parse_exec_test.py:404-426: `test_running`, `test_runningv2` -/
example : let s := "\n\
    set \"position order\" to \"lowest first\"\n\
    \n\
    output 1@3d6 named \"lowest die\"\n\
    output 1@2d6 named \"least significant digit\"\n\
    \n\
    set \"position order\" to \"highest first\" \\ the default behavior \\\n\
    \n\
    output 1@3d6 named \"highest die\"\n\
    output 1@2d6 named \"most significant digit\"\n\
    function: anotheranother test D {\n\
    \x20 result: 1\n\
    }\n\
    function: D anotheranother test B {\n\
    \x20 result: 1\n\
    }\n\
    function: D {\n\
    \x20 result: 1\n\
    }\n\
    function: D B {\n\
    \x20 result: 1\n\
    }\n\
    ".toList
    (pipeline v1 s).isSome = true ∧ (pipeline v2 s).isSome = true := by decide +kernel

/-- test/parse_exec_test.py:427-440: `test_running`, `test_runningv2` -/
example : let s := "\n\
    output [absolute 1]\n\
    output [{1..5} contains 1]\n\
    output [count 1 in {1..5}]\n\
    output [explode d3]\n\
    output [highest 1 of 2d3]\n\
    output [lowest 1 of 2d3]\n\
    output [middle 1 of 2d3]\n\
    output [highest of 1 and 1]\n\
    output [lowest of 1 and 1]\n\
    output [maximum of 2d3]\n\
    output [reverse {1..4}]\n\
    output [sort {1..4}]\n\
    ".toList
    (pipeline v1 s).isSome = true ∧ (pipeline v2 s).isSome = true := by decide +kernel

/-- test/parse_exec_test.py:441-449: `test_running`, `test_runningv2` -/
example : let s := "\n\
    function: a {result: 1}\n\
    \n\
    output [a]\n\
    \n\
    function: call b {result: [b]+1}\n\
    function: b {result: 2}\n\
    output [call b]\n\
    ".toList
    (pipeline v1 s).isSome = true ∧ (pipeline v2 s).isSome = true := by decide +kernel

/-- test/parse_exec_test.py:450-461: `test_running`, `test_runningv2` -/
example : let s := "\n\
    set \"explode depth\" to 1\n\
    AAA: 1\n\
    set \"explode depth\" to AAA\n\
    loop AAAA over {1..5} {\n\
    \x20 set \"explode depth\" to AAAA\n\
    }\n\
    loop DEPTH over {1..5} {\n\
    \x20 set \"explode depth\" to DEPTH\n\
    }\n\
    output 1\n\
    ".toList
    (pipeline v1 s).isSome = true ∧ (pipeline v2 s).isSome = true := by decide +kernel

/-- test/parse_exec_test.py:462-466: `test_running`, `test_runningv2` -/
example : let s := "\n\
    loop P over {1..5} {\n\
    \x20output 1 named \"INLOOP%[P]%\"\n\
    }\n\
    ".toList
    (pipeline v1 s).isSome = true ∧ (pipeline v2 s).isSome = true := by decide +kernel

/-- test/parse_exec_test.py:482-489: `test_FAIL_code`, `test_FAIL_codev2` -/
example : let s := "\n\
    function: a {result: 1}\n\
    \n\
    output [a]\n\
    \n\
    function: call b {result: [b]+1}\n\
    output [call b]\n\
    ".toList
    pipeline v1 s = none ∧ pipeline v2 s = none := by decide +kernel

/-- test/parse_exec_test.py:490-492: `test_FAIL_code`, `test_FAIL_codev2` -/
example : let s := "\n\
    A: 1\n\
    ".toList
    pipeline v1 s = none ∧ pipeline v2 s = none := by decide +kernel

/-- test/parse_exec_test.py:505-513: `test_unbound_var_code_fail`, `test_unbound_var_code_success` -/
example : let s := "\n\
    function: rolla {\n\
    \x20 B: B + 1\n\
    \x20 result: B\n\
    }\n\
    B: 10\n\
    output [rolla]\n\
    output B\n\
    ".toList
    pipeline v1 s = none ∧ pipeline v2 s = some [.num 11, .num 10] := by decide +kernel

end PythonDice.Conformance
