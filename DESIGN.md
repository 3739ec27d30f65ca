# Formal model of PythonDice in Lean 4

`/repo/src` is read as text; the model is written by hand, function by function. `lake build` in `lean/` checks everything.

## Layout and method

* `lean/Verif/Model/*.lean`: executable model of the Python sources. Each definition cites file and lines of `/repo` and names its
  simplifications.
* `lean/Verif/Spec/*.lean`: independent specification vocabulary: finite laws, independent draws, order statistics, IEEE doubles, the
  surface of the language, how Python reads text, what a program means. It does not mention the model's algorithms.
* `lean/Verif/Proofs/*.lean`: lemmas.
* `lean/Verif/Props/*.lean`: the theorems `Cxx_...` listed in `MANIFEST.json`, each with `example`s: a concrete non-trivial case that meets the
  hypotheses, evaluated by the kernel.
* Where a property is *false of the code*, `Cxx_..._counterexample` proves that it is false and `Cxx_..._partial` proves what is left. The status
  is then `partial`, and the note says what is missing.
* `lean/Verif/Conformance/*.lean`: the repository's own tests (`/repo/test`) with the values that they expect, as `example`s on the model: about
  300 cases of the constructor, arithmetic, `@`, casting, library functions, strings, and 27 program texts that go through lexer, parser, resolver
  and execution. Each file says which tests are left out.
* `seeded/LOG.jsonl`: wrong programs (edits of the model) and the theorems that failed for them.

## Trusted base

* Lean's kernel. The theorems depend on the axioms `propext`, `Classical.choice` and `Quot.sound` at most. There are no own axioms, no `sorry`,
  no `native_decide`, no `bv_decide`. Evaluations (`decide +kernel`) are done by the kernel; this includes the LALR tables of the grammar.
* That the model says what the Python sources say: the reading of the sources recorded in the comments, and of the Python language and library
  where they are used (integer arithmetic, dictionaries, `sorted`, `itertools`, `round`, doubles, `str` methods, `re` for the rules of the lexer).
  The sources are not run; the `Conformance` modules compare the model with the expected values in the repository's tests.
* That the definitions in `Spec` say what the English statements say.

## Modelling choices

**Numbers.** Python ints are unbounded: `ℤ`, `ℕ`. A double is a rational number that is rounded after every operation (53 bits, ties to even,
gradual underflow, overflow raises where Python raises): `dbl` in `Model/Basic.lean` and `Model/Stats.lean`. There are no infinities and no NaN.
Comparisons of two numbers give 1 or 0; Python gives `True` or `False`, which differ from these only in the text of a name and as the value of a setting.
`math.sqrt` is the correctly rounded root (`sqrtDouble`, from a bit by bit integer root); C26 is about the number under the root. `round(x, 2)` is the exact value rounded to hundredths and read back as a double; `repr` of a double is the shortest decimal that reads back as it.

**Outcomes.** The class `RV` (`Model/RV.lean`) is generic in the outcome type: ℤ; ℚ for idealised floats; symbolic strings. Construction,
grouping, convolution and rolling are proved for every such type. Code on objects (`Model/World.lean` onwards) has outcomes in ℤ. Where Python
would give a float, the sentinel error `Err.floatResult` is raised: theorems about results exclude it, theorems about failures say so.

**Laws.** The law of a die is its expectation functional: `X` has law `L` if `Ex X f = L f` for every `f : α → ℚ`. Indicators give
probabilities. Independence is iterated expectation. Exactness is claimed if the code logged no warning of reduced probabilities (`warns`).

**Objects.** `Obj = num | seq | rv | blank special`. Binary operators dispatch as Python does, including reflected methods and `NotImplemented`.

**State.** `M β = World → Except Err β × World`: the state survives exceptions. `World` has the settings, the memo table of `roll`, the number of
warnings, the outputs, and the depth messages. `Reachable` is the set of states that sequences of API calls lead to.
The dictionary `SETTINGS` with arbitrary objects as values is modelled separately (`Model/Settings.lean`).

**Object identity.** Displayed names are mutable attributes. Only `Model/StrAlias.lean` has a heap of dice; it leaves out warnings.

**Texts** are lists of characters. `roll('2d6')` is modelled for ASCII. In the lexer `\d` is a parameter that agrees with `0`-`9` on ASCII.

**Source language.** `Model/Lexer.lean` describes the tokens directly; `Model/PlyLex.lean` builds PLY's lexer from the texts of the rules, with
Python's regular expressions modelled in `Model/Regex.lean` (the syntax used by the rules; all ways to match, in the order of backtracking), and C99
proves that both agree. The LALR(1) tables are built from the docstrings of `myparser.py` by
a model of `ply/yacc.py` (`Model/Yacc.lean`) and are equal to the table written out in `Model/Tables.lean`, by evaluation in the kernel. There the
sets are bit masks and are found by rounds of propagation; `Model/Digraph.lean` and `Model/Lalr.lean` have the algorithm of the source, and C100 proves
that it gives the same tables, with the states numbered in the order of `lr0_items`.
`Model/Parser.lean` is the LR automaton, `Model/Compile.lean` adds PLY's error recovery in a short form (no rule mentions `error`);
`Model/PlyParse.lean` is the loop of `LRParser.parse` itself, and C101 proves that both give the same, whatever the numbers of the states. Trees are typed
(`Model/Ast.lean`) instead of `Node`s. What the resolver records about functions is modelled as separate functions of the tree.

**Python.** `Spec/Python.lean` and `Spec/PyProgram.lean` read the fragment of Python that the generator can emit; anything else is a syntax
error there. `Model/Exec.lean` is an interpreter for it over the objects of the model. It leaves out: Python's recursion limit, strings as operands,
attributes, functions inside functions, names of Python other than `len`. Those give the sentinel `Err.unmodelled`. `Err.fuel` is: out of
steps; results do not depend on the number of steps (C63).
For C98 `Spec/Foreign.lean` has a second, separate scanner: it fails on no text and reports every word outside of literals; prefixes of literals
other than `f`, literals in three quotes and characters beyond ASCII are reported as words, so that it reports too much rather than too little.

**Meaning of programs.** `Spec/Run.lean` runs a program on its tree with the operations of the library. `Spec/Naive.lean` has no library: dice
are lists of outcomes with rational probabilities, pools are lists of all tuples, functions are called for all combinations.

## Modelled code

| source | model | not modelled |
|--------|-------|--------------|
| `src/randvar.py` | `RV`, `Ops`, `Stats`, `Rounding`, `StrAlias` | `std` after the root; float outcomes on objects (`/` and rounding of dice are in `Rounding`, for dice only) |
| `src/seq.py`, `src/blackrv.py`, `src/utils.py`, `src/factory.py` | `SeqOps`, `World` | `Seq` of strings or floats, `__str__` |
| `src/roller.py` | `Roll`, `RollStr`, `Stats` (`roller`) | the generator of random numbers (a parameter in [0,1)) |
| `src/decorators.py` | `Cast`, `Kwargs` | inspection of annotations (types are given); `*args`, `**kwargs` and keyword-only parameters of the decorated function |
| `src/funclib.py` | `Funclib` | extra arguments, which the code ignores |
| `src/output.py` | `Output`, `Header` | printing |
| `src/settings.py` | `Settings`, `Basic` | |
| `src/string_rvs.py` | `StringVal`, `StringDice` (sums and pools of such dice), `StrShow` (text), `StringSeq` (sequences of texts and their operators) | float coefficients; a `StringVal` as the other operand of a sequence |
| `src/altcast.py` | `Altcast` | |
| `src/parser/myparser.py`, `src/parser/ply` | `Lexer`, `PlyLex`, `Regex` (Python's `re`), `Grammar`, `Yacc`, `Tables`, `Parser`, `Compile` | caching of tables, debug output |
| `src/parser/python_resolver.py` | `Resolver`, `Flags` | |
| `src/parser/parse_and_exec.py` | `Compile`, `Exec`, `ExecGlobals` (`global_vars`) | `safe_exec` (RestrictedPython) |

Not modelled at all: `src/parser/example_parse.py`, notebooks, tests.

## Properties: how they are proved

| id | proof idea |
|----|-----------|
| C01–C04 | loop invariant for grouping; gcd algebra; uniqueness of sorted lists |
| C05–C07, C52 | weighted-sum algebra; induction on expressions |
| C08 | common denominators, induction on lists |
| C09–C11 | strong induction on the number of dice, invariant of the memo table over all histories |
| C12, C49 | counting by induction on draws |
| C13, C14, C20 | multinomial counting by induction on faces |
| C15, C16, C19, C21, C45 | theorem on mixtures, induction over combinations of arguments |
| C17, C18, C64 | induction on call trees |
| C22–C25, C47, C51, C54, C55 | list induction, case analysis over all kinds of operands |
| C26, C27, C43, C44 | algebra over ℚ, error bounds of rounding |
| C28 | error bound of floor division |
| C29, C50 | weighted-sum algebra |
| C30 | invariant over sequences of operations |
| C31 | case analysis |
| C32, C33 | order axioms; counterexample for the hash |
| C34 | decimal print/parse round trip |
| C35, C62 | generated text is read back as the tree: print/parse with precedences |
| C36–C41 | injectivity of mangling, induction on trees |
| C42, C53 | lexer: induction on the text |
| C46, C48, C56 | heap of objects |
| C57, C58 | LR automaton: a table of what every state has seen, evaluated; then induction on runs (sound), on derivations (complete) |
| C59–C61 | termination of error recovery, first error |
| C63 | simulation between the interpreter and the run on the tree |
| C65 | dictionary of flags |
| C66 | logical relation between objects and naive values, kept by every operation of the library |
| C67 | error bounds of floor division and of rounding; a counterexample with large weights |
| C68 | case analysis |
| C69 | contents of outcomes as a semigroup; laws through canonical forms; invariant of the memo table, induction on the number of dice |
| C70 | the relation of C66 made total: every operation of the library succeeds on related values or the limiter overflows; enough nested calls exist, and more do not matter (C64) |
| C71 | hundredths below 10^13 are recovered by the shortest decimal that reads back as the double; bit by bit square root; error bounds of C26 under the root; the deviation itself is not right to two digits (`C71_deviation_counterexample`) |
| C72 | Fubini for independent arguments: moving one draw past the others; Python's binding of arguments as a relation `Filled`; a bad call that also gives a blank is not reported (`C72_bad_call_counterexample`) |
| C73 | the texts between ` + ` are recovered by the first separator; a term has a letter, a number has none; the cut through the die of the numbers of the outcomes; strings with `+` or `*` are not told apart (`C73_number_counterexample`, `C73_cut_counterexample`) |
| C74 | both sides have a law by enumeration (the relation of C66); laws with equal means have one canonical die (C04); for counts of different signs it is false (`C74_signs_counterexample`) |
| C75 | means over enumerated laws: sums of draws by induction (first and second moments), places of a descending list add up to the list, the recursion of exploding as a geometric sum; C26 for `mean()` |
| C76 | two runs side by side: states with the same noticeable settings and caches that hold what a roll without cache gives (C11) stay so through every operation of the library and every statement; a program that sets nothing and succeeds leaves the settings; leaks: `C76_set_counterexample`, `C76_failed_counterexample` |
| C77 | outcomes mapped one by one (`mapVals`, law for any type of outcomes), Python's roundings characterised by inequalities; the double nearest to `x / y` is never past an integer for ints below `2 ** 53`; beyond: `C77_floor_div_counterexample`, with `RV_TRUNC`: `C77_floor_div_trunc_counterexample` |
| C78 | frames, functions and programs renamed side by side: look-ups commute with injective renamings, by induction over trees and over the depth of calls; what is defined, called and output is renamed with the program, so C59 gives the same verdict; texts by C63; leftover meanings: `C78_type_counterexample`, `C78_protected_counterexample` |
| C79 | one invariant of states, variables and results, said of the form of dice (always) and of their weights (while nothing was logged), by induction over trees, the depth of calls and the list of programs; the constructor, convolutions, mixtures and order statistics keep positive weights positive; uniqueness by the law of canonical dice; the same invariant, with values, scopes and dictionaries of Python, by induction over Python programs; `C79_warned_counterexample` |
| C80 | the invariant of C79 with one more part: a computation that does not warn does the same in the state with the setting changed; constructor, convolution, mixture and order statistic (whose weights are positive by `kthWeight_eq`) drop nothing from positive weights; then by induction over the list of programs, of trees or of Python programs; `C80_warned_counterexample` |
| C81 | composition of C66 (laws by enumeration), C79 (any program), C27/C43 (rows) and C71 (header): equal probabilities give equal means by summing over the outcomes; the outcomes of a die without weights 0 are those of positive probability |
| C82 | contents by C24; decimal notation is unambiguous (`IntText.unique`), and a number followed by a comma or parenthesis can be cut off in one way |
| C83 | the enumeration laws of C66 and C75; the binomial law, hockey-stick sums and Pascal's rule by induction on the number of dice |
| C84 | a relation of states that agree in the variables and functions needed (W fixed, V growing with assignments), preserved by expressions, statements and calls; nothing looks at outputs before |
| C85 | weights in lowest terms have a sum that divides every common denominator, so the limiter does nothing; this for every operation, then by induction on programs and depth beside the proof of C66 |
| C86 | tokens are recovered from the canonical text by the lemmas on boundaries; the grammar is unambiguous (C57) and decides acceptance (C59), so the tree is recovered; the texts with dice are instances of C85, whose laws are those of C83 |
| C87 | the bound of C28 for one reduction extends from events to functions with values in [0,1] (sum by outcomes); expectation is a contraction for these, so errors of operands add up; rolls by doubling satisfy E(2m) <= 2E(m)+1, E(2m+1) <= E(2m)+1, as an invariant of the memo table kept by every step of a history |
| C88 | the state of the variables after the part agrees with that before it but for what the part assigns and defines; what follows reads neither, directly or in functions, so it does the same in both; the states of the interpreter differ only in the memo table, whose entries are determined by their keys, and in the outputs, which nobody reads |
| C89 | each part does after the other what it does before it, by the argument of C88; the variables after both orders agree name by name, although the lists that hold them differ |
| C90 | the simulation of C63 is started with related variables instead of none; with NON_LOCAL_SCOPE the related variables are those of the dictionary, which the text makes empty, and the globals with names of variables are never looked up; assignments in front change the variables only, and what is not read does not matter by the argument of C88 |
| C91 | two runs side by side, in the same variables and functions, with states of the interpreter that differ in the memo table only: where one reads the variable, the other evaluates the expression, which gives the value it gave at the assignment because nothing it needs has changed and it does not notice what was rolled |
| C92 | the entries by induction over the arguments; comparisons by induction over the two sequences; the constructor of StringSeq does not create the attributes that `sum` and `__getitem__` read, so operators and selections fail for all sequences of texts |
| C93 | substitution lemma for expressions, in any state in which the arguments have their values; calculations neither read nor change the depth of functions, so running the body one deeper does the same; the rest of the program does not notice the difference |
| C94 | congruence: states with the same variables and with functions related by rewriting do the same, by induction over the nesting of calls and the derivation |
| C95 | laws of C66 and C52; a growing function is a sum of steps, so comparing tails compares means; coupling by induction over the dice; places by counting |
| C96 | induction over the halving: what is added is a run of the halvings of n; every operation of the model only lets the table grow; counting multisets by the recursion of combinations with replacement |
| C97 | calls with equal bodies on values of the types of the parameters are equal (conversion and the count of nested calls are the same on both sides); loops by invariants over the variables; explode by induction over the depth |
| C98 | a scanner for Python texts that reports every word outside of literals, with f-strings, escapes and comments; texts are put together from fragments whose words are allowed; indenting and removing blank lines do not change the words |
| C99 | regular expressions are read from the texts of the rules and matched by backtracking; the master expressions are computed; the first match is found for every rule; induction on what is left of the text |
| C100 | invariant of the depth first search with a stack; rounds of propagation reach the same sets once they come to an end; evaluation in the kernel for the grammar |
| C101 | simulation between the loop of the source and the short parser; renaming of states; evaluation in the kernel for the numbering |
| C102 | the doubles next to a double are at least a unit away, below a power of two half a unit; whatever reads back below a double reads back above it; monotonicity of rounding |
| C103 | the parser that pulls tokens simulates the one that is given a list, with symbols related to the places of their tokens; then C99, C100 and C101 |
| C104 | invariant: the table holds factorials, and its positive keys are the numbers up to the largest argument that succeeded |
| C105 | The probability is the share of the 2^53 multiples of 1/2^53 for which `roller` of the model, with the rounding of floats, returns something; C44 says what happens for one of them. |
