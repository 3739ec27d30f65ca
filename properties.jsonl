{"id": "C01", "title": "RV() produces a canonical die", "statement": "Whenever RV(vals, probs) returns, the resulting die lists its outcomes in strictly increasing order without repetition, has exactly one non-negative integer weight per outcome, has at least one outcome, and (unless every weight is 0) its weights have greatest common divisor 1; with RV_IGNORE_ZERO_PROBS on and a positive total weight, no outcome has weight 0.", "quantifier": "all value lists, all integer weight lists, all settings", "why_tests_cant": "Canonical form must survive every order, repetition pattern and divisor structure of an unbounded list; examples cover a dozen of them.", "anchors": ["src/randvar.py:RV.__init__", "src/randvar.py:RV._sort_and_group", "src/randvar.py:RV._get_new_zipped", "src/randvar.py:RV._get_normalized"]}
{"id": "C02", "title": "RV() preserves the distribution it is given", "statement": "For every accepted input with positive total weight (and truncation off), the probability of each outcome of RV(vals, probs) is the sum of the weights listed for that outcome divided by the sum of all weights; equivalently every expectation is the weighted average over the input pairs. With truncation on it is the same statement for the truncated values.", "quantifier": "all value lists, weight lists, settings, outcomes and test functions", "why_tests_cant": "Sorting, grouping and gcd reduction interact; a lost or doubled weight can show up only for particular repetition patterns.", "anchors": ["src/randvar.py:RV.__init__", "src/randvar.py:RV._get_zip", "src/randvar.py:RV._get_new_zipped", "src/randvar.py:RV._get_normalized"]}
{"id": "C03", "title": "RV() is insensitive to listing order and to a common scale factor", "statement": "Permuting the (value, weight) pairs, splitting a weight over repeated entries, or multiplying all weights by a positive constant yields an identical die (same vals and probs). The constructor accepts its arguments exactly when they have the same length and all weights are non-negative.", "quantifier": "all inputs, all permutations, all positive scale factors, all settings", "why_tests_cant": "Quantifies over all permutations of unbounded lists.", "anchors": ["src/randvar.py:RV.__init__", "src/randvar.py:RV._sort_and_group"]}
{"id": "C04", "title": "dices_are_equal decides equality of distributions", "statement": "For dice constructed with RV_IGNORE_ZERO_PROBS on and positive total weight, RV.dices_are_equal(a, b) is true exactly when a and b assign the same probability to every outcome. In general it is true exactly when they list the same outcomes and give each of them the same probability.", "quantifier": "all pairs of constructed dice", "why_tests_cant": "A completeness claim: no two differently represented dice can have the same law.", "anchors": ["src/randvar.py:RV.dices_are_equal", "src/randvar.py:RV._get_normalized"]}
{"id": "C05", "title": "Binary operators between dice give the law of independent outcomes", "statement": "For dice X, Y and every binary operator op (+,-,*,//,%,**,comparisons,&,|), if op is defined on all pairs of outcomes and no 'reducing probabilities' warning is logged, then X op Y is distributed as op(x, y) for independent x~X, y~Y. If op raises on some pair of outcomes, X op Y raises.", "quantifier": "all dice, all operators, all outcomes", "why_tests_cant": "The claim ranges over all pairs of distributions.", "anchors": ["src/randvar.py:RV._convolve", "src/randvar.py:_rdict.fast_convolve", "src/randvar.py:_rdict.to_tuples"]}
{"id": "C06", "title": "Operators between a die and a number or sequence", "statement": "X op c is distributed as op(x, c), c op X as op(c, x), and an iterable operand (sequence) acts as the sum of its elements, on either side; no weight reduction takes place.", "quantifier": "all dice, operators, numbers and sequences", "why_tests_cant": "Ranges over all dice and both operand orders.", "anchors": ["src/randvar.py:RV._convolve", "src/randvar.py:RV._rconvolve", "src/seq.py:Seq.__add__"]}
{"id": "C07", "title": "Addition and multiplication of dice are commutative and associative as dice", "statement": "X+Y and Y+X (and X*Y, Y*X) are identical dice (same vals, same probs); (X+Y)+Z and X+(Y+Z) are identical when no reduction warning is logged; X < Y is identical to Y > X, and P(X<Y)+P(X>=Y)=1.", "quantifier": "all dice X, Y, Z", "why_tests_cant": "Algebraic laws over unbounded inputs.", "anchors": ["src/randvar.py:RV.__add__", "src/randvar.py:RV.__mul__", "src/randvar.py:RV.__lt__"]}
{"id": "C08", "title": "Mixtures are weighted averages", "statement": "RV.from_rvs(rvs, weights) ignores blank entries together with their weight; if nothing is left it returns a blank die; otherwise (positive totals, no warning) its law is the weights-average of the laws of the remaining entries (a number counts as a constant die).", "quantifier": "all finite lists of dice/numbers/blanks and all weight lists", "why_tests_cant": "The common-denominator trick (product of totals) must be exact for any number of dice of any totals.", "anchors": ["src/randvar.py:RV.from_rvs"]}
{"id": "C09", "title": "roll(n, d) is the law of the sum of n independent rolls", "statement": "For every integer n and die d (no warning logged): roll(n, d) with n >= 1 is distributed as the sum of n independent draws of d, roll(0, d) is the constant 0, and roll(-n, d) is distributed as minus the sum of n draws.", "quantifier": "all integers n, all dice d, all memo-table contents reachable under fixed settings", "why_tests_cant": "The implementation recurses by halving with memoisation; correctness for all n needs induction.", "anchors": ["src/roller.py:roll", "src/roller.py:_roll", "src/roller.py:_roll_int_rv"]}
{"id": "C10", "title": "Numeric sides, sequences and dice as roll arguments", "statement": "roll(m) / roll(1, m) is uniform on 1..m for m>0, on m..-1 for m<0 and the constant 0 for m=0; roll(n, seq) rolls a die whose faces are the sequence's elements (with multiplicity); roll(seq, d) = roll(sum of seq, d); roll(X, d) for an integer-valued die X is the compound law: draw n~X, then sum n independent draws of d.", "quantifier": "all integers, sequences and dice", "why_tests_cant": "Unbounded sides / counts / nested distributions.", "anchors": ["src/roller.py:roll", "src/roller.py:_roll", "src/randvar.py:RV.from_seq"]}
{"id": "C11", "title": "roll is history independent", "statement": "The die returned by roll(n, d) (outcomes, probabilities and len) depends only on n, d and the current settings, never on which rolls were evaluated before (the memo table is invisible).", "quantifier": "all call histories, all n, d, settings", "why_tests_cant": "Quantifies over arbitrary histories of calls and settings changes.", "anchors": ["src/roller.py:_MEMOIZED_ROLLS", "src/roller.py:_roll_int_rv", "src/settings.py:settings_set"]}
{"id": "C12", "title": "k @ (n d X) is the k-th order statistic", "statement": "For a die whose weights are coprime, k @ roll(n, X) is distributed as the k-th largest ('highest first') or k-th smallest ('lowest first') of n independent draws of X for 1<=k<=n, and is 0 for any other k.", "quantifier": "all dice X, all n, all integers k, both position orders", "why_tests_cant": "A combinatorial identity over all n, k and distributions.", "anchors": ["src/randvar.py:RV.__rmatmul__", "src/randvar.py:RV._get_kth_order_statistic", "src/randvar.py:RV.get_cdf"]}
{"id": "C13", "title": "Sequence @ dice pool", "statement": "{i,j,...} @ roll(n, X) is distributed as the sum of the i-th, j-th, ... entries of the n draws sorted according to the 'position order' setting, with out-of-range positions counting 0.", "quantifier": "all position lists, n, X, settings", "why_tests_cant": "Needs multinomial counting over all pools.", "anchors": ["src/randvar.py:RV.__rmatmul__", "src/randvar.py:_sum_at", "src/randvar.py:RV._get_expanded_possible_rolls"]}
{"id": "C14", "title": "Enumerating a dice pool as sequences is exact", "statement": "Passing roll(n, X) to a sequence-typed (T_S) parameter evaluates the function on every multiset of n faces, presented in descending order, weighted with exactly the probability that n independent draws of X sort to it: the expectation of any function of the sequence equals its expectation over n independent draws sorted descending.", "quantifier": "all n >= 1, all dice X, all functions of a sequence", "why_tests_cant": "Multinomial coefficients with floor division must be exact for every n and every multiset.", "anchors": ["src/randvar.py:RV._get_expanded_possible_rolls", "src/utils.py:factorial"]}
{"id": "C15", "title": "Casting calls the function on every combination with the product weight", "statement": "A function decorated with anydice_type_casting, called with dice for T_N/T_S parameters, returns the mixture of its results over all combinations of independent outcomes of those dice (each evaluated exactly once, in order); without dice it is simply called once with int/seq/die arguments converted as documented (seq->sum for T_N, int->one-element seq for T_S, int/seq->die for T_D); unannotated parameters are passed through unchanged.", "quantifier": "all annotation lists, argument lists, user functions", "why_tests_cant": "User functions are arbitrary.", "anchors": ["src/decorators.py:anydice_type_casting"]}
{"id": "C16", "title": "Blank dice and missing results in casting", "statement": "A blank die passed to a T_N or T_S parameter makes the call return a (special) blank without calling the function; passed to T_D or unannotated it is passed through. Outcomes on which the function returns nothing/blank are dropped and the rest renormalised (conditional distribution); if all are dropped the result is blank.", "quantifier": "all functions, argument lists, sets of outcomes on which the function returns nothing", "why_tests_cant": "Conditioning over arbitrary subsets of outcomes.", "anchors": ["src/decorators.py:anydice_type_casting", "src/randvar.py:RV.from_rvs", "src/blackrv.py:BlankRV"]}
{"id": "C17", "title": "Function-depth limit", "statement": "A function decorated with anydice_casting is never executing more than 'maximum function depth' levels deep; a call beyond the limit returns a blank die without calling the body and prints the warning at most once; after any call returns, the current depth is what it was before; a body returning nothing yields a blank.", "quantifier": "all call trees of decorated functions, all limits", "why_tests_cant": "Needs induction over arbitrary call trees.", "anchors": ["src/decorators.py:max_func_depth", "src/settings.py:SETTINGS"]}
{"id": "C18", "title": "Function-depth accounting survives exceptions", "statement": "If a decorated function raises and the caller catches the exception, the depth available to later calls is unaffected.", "quantifier": "all call trees in which some bodies raise", "why_tests_cant": "Needs all interleavings of returns and raises.", "anchors": ["src/decorators.py:max_func_depth"]}
{"id": "C19", "title": "explode", "statement": "explode(X) with depth m is distributed as: draw x~X; if x is the largest listed face and m>0, add an independent exploded draw with depth m-1; depth defaults to the 'explode depth' setting.", "quantifier": "all dice X, all depths m", "why_tests_cant": "Recursion depth and die are unbounded.", "anchors": ["src/funclib.py:explode", "src/funclib.py:_explode_helper", "src/funclib.py:maximum_of"]}
{"id": "C20", "title": "highest / lowest / middle N of D", "statement": "highest_N_of_D(k, roll(n,X)) is distributed as the sum of the k largest of n independent draws, lowest_N_of_D as the sum of the k smallest, middle_N_of_D as the sum of the k draws starting at position 1+(n-k)//2 of the descending order (for 1<=k<=n).", "quantifier": "all k, n, X", "why_tests_cant": "Order statistics over all pools.", "anchors": ["src/funclib.py:highest_N_of_D", "src/funclib.py:lowest_N_of_D", "src/funclib.py:middle_N_of_D"]}
{"id": "C21", "title": "Pointwise library functions", "statement": "absolute, contains, count_in, highest_of_N_and_N, lowest_of_N_and_N applied to dice are distributed as |x|, [x in s], number of matches, max(x,y), min(x,y) of independent outcomes; on plain numbers/sequences they return exactly those values.", "quantifier": "all numbers, sequences, dice", "why_tests_cant": "Unbounded inputs.", "anchors": ["src/funclib.py:absolute", "src/funclib.py:contains", "src/funclib.py:count_in", "src/funclib.py:highest_of_N_and_N", "src/funclib.py:lowest_of_N_and_N"]}
{"id": "C22", "title": "Sequence indexing and selection", "statement": "i @ s is the i-th element counting from 1 and 0 for every position outside 1..len; {i,j,..} @ s is the sum of the selected elements (repetitions counted); {i,..} @ number selects decimal digits from the left.", "quantifier": "all sequences, positions, integers", "why_tests_cant": "Boundaries for all lengths, negative and zero positions.", "anchors": ["src/seq.py:Seq.__getitem__", "src/seq.py:Seq.__matmul__", "src/seq.py:Seq.__rmatmul__", "src/utils.py:mymatmul"]}
{"id": "C23", "title": "Sequence comparison semantics", "statement": "seq cmp number counts the elements satisfying cmp; seq == seq iff same elements in the same order; seq != seq is its negation; the ordering comparisons compare position by position with missing positions counting as minus infinity; seq cmp die behaves as sum(seq) cmp die.", "quantifier": "all sequences and numbers", "why_tests_cant": "All lengths, incl. unequal lengths.", "anchors": ["src/seq.py:Seq._compare_to", "src/seq.py:Seq.__eq__", "src/seq.py:Seq.__ne__"]}
{"id": "C24", "title": "Building sequences flattens and is idempotent", "statement": "get_seq(...) keeps all numbers of arbitrarily nested iterables in order and appends, after all numbers, the outcomes of the dice in order; blanks vanish; get_seq(get_seq(x)) equals get_seq(x); nesting structure is irrelevant.", "quantifier": "all nested sources", "why_tests_cant": "Unbounded nesting.", "anchors": ["src/utils.py:flatten", "src/factory.py:get_seq", "src/seq.py:Seq.__init__"]}
{"id": "C25", "title": "sort and reverse agree with their reference versions", "statement": "sort(s) is the descending permutation of s and sort_VANILLA_SLOW(s) returns the same sequence; reverse(s) and reverse_VANILLA_SLOW(s) both return s reversed; reverse is an involution and sort is idempotent.", "quantifier": "all integer sequences, and for the agreement with the slow versions all arguments (numbers, sequences, random variables)", "why_tests_cant": "All permutations of all lengths.", "anchors": ["src/funclib.py:sort", "src/funclib.py:sort_VANILLA_SLOW", "src/funclib.py:_sort_helper_add_N_to_S", "src/funclib.py:reverse", "src/funclib.py:reverse_VANILLA_SLOW"]}
{"id": "C26", "title": "mean and std", "statement": "mean() is the correctly rounded expectation of the die and None exactly when the total weight is 0; the variance computed by std() before rounding, E[X^2]-E[X]^2, equals E[(X-E X)^2] and is never negative; mean is additive over independent sums and var too.", "quantifier": "all dice", "why_tests_cant": "Identities over all distributions.", "anchors": ["src/randvar.py:RV.mean", "src/randvar.py:RV.std"]}
{"id": "C27", "title": "get_vals_probs returns the pdf; cdf_cut removes little mass", "statement": "get_vals_probs() lists every outcome once, in increasing order, with its (correctly rounded) probability, the exact probabilities summing to 1; with 0 < cdf_cut < 1 the removed outcomes have total probability less than cdf_cut and no removed outcome is more likely than a kept one.", "quantifier": "all dice, all cut levels", "why_tests_cant": "All distributions and thresholds, including ties.", "anchors": ["src/randvar.py:RV.get_vals_probs"]}
{"id": "C28", "title": "Probability reduction loses a bounded amount", "statement": "When weights are reduced (total above 1e31) the probability of every event changes by at most (number of outcomes)*N/total where N is the logged normalising constant, which is at least 1e10 and at most 1.01e-20 times the total (for dice with at most 9*10^9 outcomes); outcomes keep their identity and order, and no reduction happens at or below the limit. Totals beyond the double range raise OverflowError.", "quantifier": "all dice with arbitrarily large weights", "why_tests_cant": "Triggered only by astronomically large weights.", "anchors": ["src/randvar.py:_INTERNAL_PROB_LIMIT_VALS"]}
{"id": "C29", "title": "filter is conditioning", "statement": "X.filter(vs) is distributed as X conditioned on not being in vs when that has positive probability; when nothing is left it is the constant 0.", "quantifier": "all dice and filter arguments", "why_tests_cant": "All distributions and subsets.", "anchors": ["src/randvar.py:RV.filter"]}
{"id": "C30", "title": "Settings are validated and atomic", "statement": "settings_set either stores a legal value for exactly that setting, or raises and changes nothing; every reachable settings state has legal values; settings_reset restores the defaults from any state.", "quantifier": "all sequences of settings_set/settings_reset calls with arbitrary names and values", "why_tests_cant": "All histories.", "anchors": ["src/settings.py:settings_set", "src/settings.py:settings_reset"]}
{"id": "C31", "title": "Blank dice are neutral/absorbing", "statement": "An ordinary blank is neutral for + and | and right operand of -, and absorbing for the other arithmetic operators and comparisons; a special blank absorbs all arithmetic and answers 1 to comparisons and logical operators; both sides of the operator agree.", "quantifier": "all operands on both sides of all operators", "why_tests_cant": "All operator/operand-type combinations through Python's dispatch.", "anchors": ["src/blackrv.py:BlankRV", "src/randvar.py:RV._convolve", "src/randvar.py:RV._rconvolve"]}
{"id": "C32", "title": "Symbolic (string) outcomes are consistently ordered and added", "statement": "Mixed numbers and string outcomes are totally ordered (numbers first), the order is compatible with equality, and adding string outcomes is commutative and associative with coefficients adding up, so dice with string faces group correctly.", "quantifier": "all string outcomes and numbers", "why_tests_cant": "Order axioms over all triples.", "anchors": ["src/string_rvs.py:StringVal._compare_to", "src/string_rvs.py:StringVal.__add__", "src/string_rvs.py:StringVal.__eq__"]}
{"id": "C33", "title": "String outcomes respect the hash contract", "statement": "Equal string outcomes have equal hashes, so that using them in sets and dictionaries (e.g. filter) works.", "quantifier": "all pairs of equal string outcomes however they were built", "why_tests_cant": "Depends on the construction history of a value.", "anchors": ["src/string_rvs.py:StringVal.__hash__", "src/string_rvs.py:StringVal.__eq__", "src/randvar.py:RV.filter"]}
{"id": "C34", "title": "String dice notation", "statement": "roll('NdM') equals roll(N, M) and roll('dM') equals roll(1, M) for all integers N, M written in decimal; strings without exactly one 'd' raise.", "quantifier": "all integers N, M; all strings", "why_tests_cant": "Print/parse round trip over all integers.", "anchors": ["src/roller.py:_parse_from_str", "src/roller.py:roll"]}
{"id": "C35", "title": "Compiled expressions keep their structure", "statement": "The Python expression emitted by compile_anydice, read with Python's own precedence and associativity, has the operator structure the anydice grammar assigned to the source expression.", "quantifier": "all expressions", "why_tests_cant": "All nestings of all operators.", "anchors": ["src/parser/python_resolver.py:PythonResolver.resolve_node", "src/parser/myparser.py:precedence"]}
{"id": "C36", "title": "Function name mangling is unambiguous", "statement": "A function definition and a function call are linked by name exactly when they have the same sequence of words and parameter positions; distinct anydice signatures never share a Python name, with and without the collision prefix.", "quantifier": "all signatures", "why_tests_cant": "Injectivity over unbounded word lists.", "anchors": ["src/parser/python_resolver.py:PythonResolver.resolve_node"]}
{"id": "C37", "title": "User functions never clash with the runtime", "statement": "A program whose functions collide with names used by generated code is recompiled with a prefix such that no user function name equals a name used by the generated code, and calls to the function library still work.", "quantifier": "all programs", "why_tests_cant": "All names and programs.", "anchors": ["src/parser/python_resolver.py:PythonResolver.resolve", "src/parser/python_resolver.py:_FUNCS_MAY_COLLIDE"]}
{"id": "C38", "title": "Compilation rejects unknown functions and programs without output", "statement": "compile succeeds only if every called function is defined in the program or in the function library (with the existence check on) and at least one output statement occurs.", "quantifier": "all programs", "why_tests_cant": "All programs.", "anchors": ["src/parser/python_resolver.py:PythonResolver.resolve"]}
{"id": "C39", "title": "String literals survive compilation", "statement": "The text of a string literal, with [VAR] replaced by the variable's value, is what the generated f-string evaluates to.", "quantifier": "all literals", "why_tests_cant": "All character sequences.", "anchors": ["src/parser/python_resolver.py:PythonResolver.resolve_node", "src/parser/myparser.py:t_instring_INSTRING_ANY"]}
{"id": "C40", "title": "Block structure is preserved by indentation and blank-line removal", "statement": "Every nested block is emitted with strictly deeper indentation than its header and same indentation among its statements; removing repeated blank lines deletes only blank lines; a block is never empty.", "quantifier": "all programs", "why_tests_cant": "All nestings.", "anchors": ["src/parser/python_resolver.py:PythonResolver._indent_str", "src/parser/python_resolver.py:PythonResolver.resolve"]}
{"id": "C41", "title": "Duplicate parameters are renamed apart", "statement": "For a function with repeated parameter names the generated parameter list has pairwise distinct names and keeps the first occurrence of each name; types are kept.", "quantifier": "all parameter lists", "why_tests_cant": "All duplicate patterns.", "anchors": ["src/parser/python_resolver.py:fix_dups_in_args", "src/parser/python_resolver.py:has_dups"]}
{"id": "C42", "title": "Lexing is lossless and insensitive to layout", "statement": "Lexing any text terminates, every character is accounted for (token, whitespace, comment, quote or reported illegal character), an unterminated string is always reported, and spaces/tabs/newlines/comments between tokens do not change the token list.", "quantifier": "all texts", "why_tests_cant": "All character sequences.", "anchors": ["src/parser/myparser.py:tokens", "src/parser/myparser.py:t_LOWERNAME", "src/parser/ply/lex.py:Lexer.token"]}
{"id": "C43", "title": "Rendering shows every outcome once", "statement": "output(rv, print_=False) has one line per listed outcome in increasing order between the header and a separator; blank dice and empty sequences render as just a separator; a name is prepended.", "quantifier": "all dice, names, widths", "why_tests_cant": "All dice.", "anchors": ["src/output.py:output", "src/output.py:_output_blank"]}
{"id": "C44", "title": "roller only returns possible outcomes with the right frequencies", "statement": "roller(X) returns an outcome with positive weight, and as the uniform random number ranges over [0,1) each outcome is returned on an interval of length equal to its probability; roller(X, n) returns n outcomes.", "quantifier": "all dice, all random numbers", "why_tests_cant": "All dice and all values of the generator.", "anchors": ["src/roller.py:roller"]}
{"id": "C45", "title": "Great weapon fighting", "statement": "gwf(n, D, m) is the sum of n independent copies of: roll D, and if the result is at most m, the result of a second independent roll of D instead.", "quantifier": "all n, D, m", "why_tests_cant": "All dice.", "anchors": ["src/funclib.py:gwf", "src/funclib.py:_gwf_helper"]}
{"id": "C46", "title": "Displayed names of dice are stable", "statement": "str(X) of an existing die never changes because of later calls to roll.", "quantifier": "all histories of roll calls", "why_tests_cant": "Aliasing appears only in certain histories.", "anchors": ["src/roller.py:roll", "src/roller.py:_setup_str_LHS_RHS", "src/randvar.py:RV.__str__"]}
{"id": "C47", "title": "Operators on plain integers", "statement": "myMatmul(k, n) is the k-th decimal character of n (0 out of range), myLen(n) the number of decimal digits of |n|, myInvert(n) is 1 iff n = 0, myAnd/myOr are logical conjunction/disjunction returning 0/1.", "quantifier": "all integers", "why_tests_cant": "All integers.", "anchors": ["src/utils.py:mymatmul", "src/utils.py:mylen", "src/utils.py:myinvert", "src/utils.py:myand", "src/utils.py:myor"]}
{"id": "C48", "title": "A single die seen as a sequence is the die itself", "statement": "For a die X with len(X) = 1, 1 @ X is X, and passing X to a T_S parameter that returns its argument gives X back.", "quantifier": "all dice with len 1, however constructed", "why_tests_cant": "Depends on how the die was built.", "anchors": ["src/roller.py:_roll", "src/randvar.py:RV._get_expanded_possible_rolls", "src/randvar.py:RV.set_source"]}
{"id": "C49", "title": "cdf", "statement": "X.get_cdf() lists the same outcomes and its weight at v is proportional to P(X <= v), the last one being the total weight (for coprime weights exactly the cumulative sums).", "quantifier": "all dice", "why_tests_cant": "All dice.", "anchors": ["src/randvar.py:RV.get_cdf"]}
{"id": "C50", "title": "Logical negation and unary operators of dice", "statement": "-X is distributed as -x, abs(X) as |x|, +X is X; ~X is the constant 1 if X is the constant 0 and otherwise the constant 0.", "quantifier": "all dice", "why_tests_cant": "All dice.", "anchors": ["src/randvar.py:RV.__neg__", "src/randvar.py:RV.__abs__", "src/randvar.py:RV.__invert__"]}
{"id": "C51", "title": "Ranges", "statement": "myrange(a, b) enumerates exactly the integers from a to b inclusive, ascending, and is empty for b < a; a die as an endpoint raises TypeError.", "quantifier": "all integers a, b", "why_tests_cant": "All integers.", "anchors": ["src/roller.py:myrange"]}
{"id": "C52", "title": "Dice expressions evaluate to the law of the pointwise expression", "statement": "Any expression built from numbers and independent dice with + - * // % comparisons & | unary minus and abs evaluates (no error, no warning) to the distribution of the same expression applied to independent outcomes of its dice.", "quantifier": "all expressions and all dice", "why_tests_cant": "Compositional claim over unbounded expressions.", "anchors": ["src/randvar.py:RV._convolve", "src/randvar.py:RV._rconvolve", "src/randvar.py:RV._apply_operation"]}
{"id": "C53", "title": "Lexer error reports point at the offending place", "statement": "Every entry of the list of illegal characters carries the offset of that character in the program (the end of the program for an unclosed string), the number of its line and its column counted from the last newline.", "quantifier": "all texts and all reports made for them", "why_tests_cant": "Depends on every combination of comments, strings and newlines before the reported character.", "anchors": ["src/parser/myparser.py:t_ANY_error", "src/parser/myparser.py:t_ANY_eof", "src/parser/myparser.py:find_column", "src/parser/myparser.py:t_INITIAL_ignore_newline"]}
{"id": "C54", "title": "Blank dice as operands of rolls, selections and unary operators", "statement": "Rolling blank dice or an empty sequence gives a blank die, rolling a blank number of proper dice gives the special blank die; selecting positions in a blank die gives a blank die, in the special one it gives 0 unless every position is 1; # is 0 resp. 1, ! is blank resp. 1, unary minus and abs leave them unchanged; a blank die used as a position raises TypeError.", "quantifier": "all objects (numbers, sequences, dice, blanks), positions and states", "why_tests_cant": "Every kind of other operand and every position.", "anchors": ["src/roller.py:roll", "src/blackrv.py:BlankRV.__rmatmul__", "src/blackrv.py:BlankRV.__len__", "src/blackrv.py:BlankRV.__invert__", "src/utils.py:mylen"]}
{"id": "C55", "title": "Sequences in arithmetic stand for their sum", "statement": "Between sequences and numbers every operator that is not a comparison acts on the sums (same value, defined in the same cases, no effect on the state); with a die or blank die on the other side the sequence is replaced by its sum, comparisons included; !s tests whether the sum is 0, #s is the length; unary minus and abs raise TypeError.", "quantifier": "all sequences, numbers, dice and operators", "why_tests_cant": "All sequences of all lengths.", "anchors": ["src/seq.py:Seq.__add__", "src/seq.py:Seq.__or__", "src/seq.py:Seq.__invert__", "src/seq.py:Seq._compare_to"]}
{"id": "C56", "title": "The name of a roll describes it", "statement": "str(roll(n, d)) is the decimal count (omitted for -1, 0, 1; a sequence counts as its sum, a die as 0), a d, and the number of sides if d is an int or a die named as a single plain die, {?} for other dice and {0..0} if the product is 0; a minus sign is shown exactly if the product of count and sides is negative.", "quantifier": "all counts (ints, sequences, dice) with ints or sequences of faces as d, all int counts with dice as d, and all heaps of previously created dice", "why_tests_cant": "All integers, and names depend on previously named objects.", "anchors": ["src/roller.py:_setup_str_LHS_RHS", "src/randvar.py:RV.__str__"]}
{"id": "C57", "title": "The parser reads exactly the language of the grammar, in one way", "statement": "For the tokens of any source text the parser returns a syntax tree exactly if the tree is written as exactly these tokens, with binary operators associating to the left at their precedence, d, unary operators and # applied to terms, and arguments of calls told apart; there is at most one such tree, and every such tree is found.", "quantifier": "all source texts, all token lists, all syntax trees", "why_tests_cant": "All programs of all sizes; a conflict resolved the wrong way in the parser's tables shows up only in particular combinations of tokens.", "anchors": ["src/parser/myparser.py:precedence", "src/parser/myparser.py:p_single_code", "src/parser/myparser.py:p_expression_binop", "src/parser/ply/yacc.py:LRParser.parse", "src/parser/ply/yacc.py:LRTable.lr_parse_table"]}
{"id": "C58", "title": "Operator precedence", "statement": "Of two binary operators the one that binds tighter (| < & < comparisons < + - < * / < ^ < @) is applied first, of equally tight ones the left one; d binds tighter than every binary operator; unary operators bind tighter than every binary operator and than d.", "quantifier": "all operators and all operands", "why_tests_cant": "All pairs of operators with all operands.", "anchors": ["src/parser/myparser.py:precedence", "src/parser/myparser.py:p_expression_dop", "src/parser/myparser.py:p_term_unary"]}
{"id": "C59", "title": "Compilation accepts exactly the right programs", "statement": "The parser, with all its recoveries from errors, ends on every source text within a number of steps linear in its length. compile_anydice returns Python text exactly if the source is not blank, has no illegal characters, is written as some program tree, no function has repeated untyped parameters, the program has an output, and (with the existence check) every called function is defined in it or is a library function whose use does not collide with a definition; and the text returned is the resolver's text for that tree.", "quantifier": "all source texts, all compiler flags, all notions of digit", "why_tests_cant": "All texts, including those on which error recovery runs; termination of the recovery loop is not observable by finitely many tests.", "anchors": ["src/parser/parse_and_exec.py:compile_anydice", "src/parser/ply/yacc.py:LRParser.parse", "src/parser/python_resolver.py:PythonResolver.resolve"]}
{"id": "C60", "title": "Compilation fails only with the documented assertions", "statement": "compile_anydice fails only with one of its assertion errors (blank, illegal characters, syntax errors, no output, unknown function, library conflict). (False: a function without a name, a call whose name starts with a call and repeated untyped parameters raise IndexError; these are the only exceptions.)", "quantifier": "all source texts, all compiler flags", "why_tests_cant": "All texts.", "anchors": ["src/parser/parse_and_exec.py:compile_anydice", "src/parser/myparser.py:p_function_single", "src/parser/python_resolver.py:PythonResolver._check_and_fix_func_def"]}
{"id": "C61", "title": "Reported syntax errors point at the first wrong token", "statement": "If syntax errors are reported the text is not a program; the first reported token is a token of the text such that no program begins with the tokens up to and including it; its value, position and column are those of that token in the text, and its line is the line of the text that it stands on. (The last part is false: the lexer's line is not reset between its two passes, so the number of newlines of the whole text is added.)", "quantifier": "all source texts", "why_tests_cant": "All texts; the claim that no continuation is a program is about infinitely many texts.", "anchors": ["src/parser/parse_and_exec.py:compile_anydice", "src/parser/myparser.py:p_error", "src/parser/ply/yacc.py:LRParser.parse"]}
{"id": "C62", "title": "Python reads the generated text as the program", "statement": "The text that compile_anydice returns is valid Python, and Python reads it as the source program: the same statements in the same order with the same blocks under them, every expression grouped as in the source, every function under its mangled name with its parameters in order, repeated parameters renamed, and with the types declared for them, and, if the flag NON_LOCAL_SCOPE is set, every variable as an entry of the dictionary vars, which every function copies and extends by its parameters first. (False in four cases: literals with quotes, backslashes or carriage returns; operands that Python groups in another way; names of functions or types that are keywords of Python; result: outside of functions.)", "quantifier": "all source texts, all compiler flags", "why_tests_cant": "All programs of any size; a test can only compare the texts of particular programs.", "anchors": ["src/parser/parse_and_exec.py:compile_anydice", "src/parser/python_resolver.py:PythonResolver.resolve", "src/parser/python_resolver.py:PythonResolver.resolve_node"]}
{"id": "C63", "title": "Running the generated text does what the program does", "statement": "For a program that compile_anydice accepts, unsafe_exec of the generated text gives the outputs of the program, with their names and in their order, or raises its error, and changes settings, memo and warnings as the program says: every statement in its order, loops over the numbers of a sequence with the loop variable kept after the loop, functions called with their arguments converted to the declared types and their results combined over dice, on a copy of the caller's variables if the flag NON_LOCAL_SCOPE is set, and otherwise on variables of their own, reading those of the program. (False: with NON_LOCAL_SCOPE calls of true div raise TypeError; a parameter type other than n, s, d raises NameError at the definition; variables RV, T_N, T_S, T_D and functions whose name is taken in Python mean something else.)", "quantifier": "all source texts, all compiler flags, all states of the library", "why_tests_cant": "All programs and all states; a test runs particular programs and cannot tell that no other program is executed in another way than it was written.", "anchors": ["src/parser/parse_and_exec.py:unsafe_exec", "src/parser/parse_and_exec.py:compile_anydice", "src/parser/python_resolver.py:PythonResolver.resolve_node", "src/decorators.py:anydice_casting"]}
{"id": "C64", "title": "Recursion of program functions ends at the maximal depth", "statement": "Functions of a program never call each other deeper than the setting \"maximum function depth\": what a deeper call would do never matters, whatever functions call each other and with which arguments, so every program ends; and when it has succeeded the recorded depth is what it was before. (False for programs that set the maximal depth themselves: a function that raises it before it calls itself never ends.)", "quantifier": "all programs, all settings, all states of the library", "why_tests_cant": "Termination of all programs, with mutual recursion and recursion over all combinations of dice.", "anchors": ["src/decorators.py:max_func_depth", "src/settings.py:settings_set", "src/parser/python_resolver.py:PythonResolver.resolve_node"]}
{"id": "C65", "title": "Compiler flags", "statement": "compile_anydice(s, flags) succeeds exactly if all keys of flags are known flags and s compiles with the flags asked for (missing flags are off, except the check that functions exist); unknown flags are reported, all of them and only these, once s was parsed; the dictionary of the caller is left as it was, so that compiling again with it gives the same. (The last part is false: the flags are taken out of the dictionary of the caller, so that the next compilation with it silently uses the defaults.)", "quantifier": "all source texts, all dictionaries of flags", "why_tests_cant": "All dictionaries and texts, and sequences of calls that share a dictionary.", "anchors": ["src/parser/python_resolver.py:PythonResolver.__init__", "src/parser/parse_and_exec.py:compile_anydice"]}
{"id": "C66", "title": "The outputs of a program have the laws of naive enumeration", "statement": "If a program runs without error and without the warning that probabilities were rounded, its outputs, in their order, are what enumeration gives: every die is listed by all its outcomes, n dice by all n-tuples of outcomes, an operation is done on every pair of outcomes, a function with dice for its number or sequence parameters is called for every choice and the results are mixed. Numbers, sequences and blanks are equal; names of outputs show the values of the variables in them; a die has exactly the possible outcomes, each once, in ascending order, with exactly their probabilities as weights in lowest terms. `!` of a die asks whether it is certainly 0. If the lowest die is set to be the first, this applies to the selection of a single place only. (False where a die of a random number of dice is taken apart, by #, @ or a sequence parameter: it is recorded as a single die.)", "quantifier": "all programs (functions with recursion, loops, conditions, the whole function library), all scoping rules, all states of the library, all settings of position order, depth and explode depth, also if the program changes them outside functions", "why_tests_cant": "Relates every program to an independent semantics; a test compares particular programs with particular tables.", "anchors": ["src/randvar.py:RV", "src/roller.py:roll", "src/decorators.py:_anydice_casting", "src/decorators.py:max_func_depth", "src/funclib.py", "src/seq.py:Seq", "src/blackrv.py:BlankRV"]}
{"id": "C67", "title": "The logged error bound of reduced probabilities", "statement": "When the probabilities of a result are reduced, the number that the code logs as maximum error is an upper bound of the change of any probability. (False: a probability can change by more than twice the logged number. What holds: the probability of any event changes by at most the logged number times the number of outcomes, up to rounding.)", "quantifier": "all results of _convolve, all settings, all events", "why_tests_cant": "Concerns totals beyond 10^31, all distributions of weights, and the rounding of the logged double.", "anchors": ["src/randvar.py:_INTERNAL_PROB_LIMIT_VALS"]}
{"id": "C68", "title": "n *D* d is roll(n, d)", "statement": "With the marker D of altcast, `D * d` is roll(d) and `n *D* d` is roll(n, d): same results, effects and errors, for every kind of operands; a factor before it multiplies the number of dice. (False when n is a die or blank: the operator of the die is asked first. A die with two outcomes or more raises TypeError, so that `2 *D* 2 *D* 6` raises; a blank gives another kind of blank than roll.)", "quantifier": "all operands, all states of the library", "why_tests_cant": "All operand kinds at both sides, in all states.", "anchors": ["src/altcast.py:D"]}
{"id": "C69", "title": "Dice with string outcomes: sums and pools", "statement": "Adding dice whose outcomes are strings, sums of strings and numbers, or numbers, gives every sum of outcomes with the product of the probabilities; rolling n of them gives the law of the sum of n independent draws; outcomes that contain the same strings equally often are one outcome, whatever the order in which they were added and whatever the hash functions are, and outcomes are listed once, in ascending order. The memo table of rolls does not change this. A negative number of dice with a possible string outcome raises TypeError.", "quantifier": "all dice, all numbers of dice, all settings, all hash functions, all histories of rolls", "why_tests_cant": "Hashes of strings differ between runs of Python, and equal outcomes can have different hashes (C33).", "anchors": ["src/string_rvs.py:StringVal", "src/randvar.py:RV._convolve", "src/randvar.py:_rdict", "src/roller.py:_roll_int_rv"]}
{"id": "C70", "title": "A program that has a meaning runs to its end", "statement": "If enumeration of all outcomes gives outputs for a program (variables and functions it uses exist when they are used, no possible outcome divides by 0 or is raised to a negative power, conditions are numbers or sequences, settings are set to values they can have), then the program runs to its end from every state of the library, given functions may be nested deep enough, and outputs what enumeration gives; unless probabilities were rounded, which is logged, or the limiter of probabilities raises OverflowError.", "quantifier": "all programs described by enumeration (see C66), all scoping rules, all states of the library, all settings of position order, depth and explode depth, also if the program changes them outside functions", "why_tests_cant": "The absence of errors for every program and every state; tests run particular programs.", "anchors": ["src/randvar.py:RV", "src/roller.py:roll", "src/decorators.py:_anydice_casting", "src/decorators.py:max_func_depth", "src/funclib.py", "src/seq.py:Seq", "src/blackrv.py:BlankRV", "src/settings.py:settings_set"]}
{"id": "C71", "title": "The header line shows the mean and the deviation, rounded to hundredths", "statement": "The first line of output() for a die shows, after the name, the mean and the standard deviation around ' ± ', each in decimal notation with one or two digits after the point: the mean rounded to hundredths, and the standard deviation rounded to hundredths. A certain number n is shown as 'n.0 ± 0.0'. If computing them raises, 'NaN ± NaN' is shown; for a die without weight, 'None ± None'.", "quantifier": "all dice with a mean square of at most 10^24, all settings", "why_tests_cant": "The deviation is computed as the difference of two rounded numbers; how far it can be off, and that the text never has more digits, needs a proof over all dice.", "anchors": ["src/output.py:output", "src/randvar.py:RV.mean", "src/randvar.py:RV.std"]}
{"id": "C72", "title": "Keyword arguments and default values of functions that convert their arguments", "statement": "A function decorated with anydice_type_casting can be called with positional and keyword arguments, the latter in any order: the result has the law of the call with every argument by position, in the order of the parameters, rolled independently; parameters not given take their default value unconverted. With all arguments by position it is the same computation as without this mechanism. A call that gives too many positional arguments, an unknown keyword, a parameter twice, or too few arguments raises TypeError and never calls the function.", "quantifier": "all parameter lists with distinct names, all functions, all positional and keyword arguments (numbers, sequences, dice, pools, blanks), all states", "why_tests_cant": "Keywords change the order in which the combinations of rolls are enumerated; that the law does not depend on it needs an exchange argument over all argument lists.", "anchors": ["src/decorators.py:anydice_type_casting"]}
{"id": "C73", "title": "String outcomes are listed and shown so that they can be told apart", "statement": "get_vals_probs() of a die with string outcomes lists every outcome once, in ascending order, with its correctly rounded probability; a string outcome is shown as its strings in ascending order, each with how often it occurs if not once, then the number that was added; one string that looks like a number is put between quotes. Different outcomes are shown differently, so a cut leaves out only outcomes whose total probability is below it. output() shows one line per outcome between a header and a separator.", "quantifier": "all dice with string outcomes, all cut levels, names and widths", "why_tests_cant": "All strings: whether two different outcomes can look alike depends on the characters of the strings.", "anchors": ["src/string_rvs.py:StringVal.__repr__", "src/string_rvs.py:StringVal.is_number", "src/randvar.py:RV.get_vals_probs", "src/output.py:output"]}
{"id": "C74", "title": "Expressions that mean the same dice give the same dice object", "statement": "Algebraic identities of dice hold of the objects that the library makes: the two sides have the same outcomes and the same weights, whatever was rolled before (the roll cache) and whatever the settings. n dX + m dX is (n+m)dX for counts of one sign; n d(m dX) is (n*m)dX; (-n)dX and n d(-X) are -(n dX); n d(X+Y) is n dX + n dY; n d(X*c) is (n dX)*c; n d(X+c) is n dX + n*c; Y dX + Z dX is (Y+Z)dX for dice Y, Z without negative outcomes; X-Y is X+(-Y) and -(Y-X); -(-X) is X; + and * are commutative and associative, (X+Y)*c is X*c + Y*c; every comparison is 1 minus its complement and the mirrored comparison of the exchanged dice; [absolute -X] is [absolute X]; [highest of X and Y] is -[lowest of -X and -Y] and does not depend on the order; 1@2dX and 2@2dX are [highest of X and X] and [lowest of X and X]; the k-th of n dice from the highest is the (n+1-k)-th from the lowest; {1..n}@ndX, [highest n of ndX] and [lowest n of ndX] are ndX; [highest k of ndX] is -[lowest k of nd(-X)]. Exceptions are only: a warning that probabilities were rounded was logged, or the limiter of probabilities raised OverflowError.", "quantifier": "all dice with integer outcomes and positive weights in lowest terms, all counts, numbers and positions, all reachable states (roll caches), all settings (for single places: the stated position order)", "why_tests_cant": "All dice, counts and states; both sides go through different code (the doubling algorithm, order statistics, mixtures, calls for every outcome).", "anchors": ["src/roller.py:roll", "src/roller.py:_roll_int_rv", "src/randvar.py:RV.__add__", "src/randvar.py:RV.__rmatmul__", "src/randvar.py:RV.__neg__", "src/funclib.py:highest_of_N_and_N", "src/funclib.py:highest_N_of_D", "src/funclib.py:lowest_N_of_D"]}
{"id": "C75", "title": "Means and variances of pools, selections, counts and exploding dice follow the formulas of probability theory", "statement": "Whatever was rolled before, mean() shows, to the nearest double: n*mu for ndX; E[Y]*mu for YdX; the product of the means for X*Y; the probability of the comparison for X<Y, X<=Y, X=Y; n times the sum of the probabilities of the numbers in vs for [count vs in ndX]; mu*(1+p+...+p^e) for [explode X] with explode depth e, p being the probability of the highest outcome; E|X| for [absolute X]. The means of the 1st, ..., n-th highest of n dice do not increase and add up to n*mu; those of [highest k of ndX] and [lowest n-k of ndX] add up to n*mu; those of [highest of X and Y] and [lowest of X and Y] add up to that of X+Y. The variance is |n|*sigma^2 for ndX and E|Y|*sigma^2 + Var(Y)*mu^2 for YdX. Exceptions are only: a warning that probabilities were rounded was logged, or the limiter of probabilities (or, for means outside the range of doubles, mean()) raised OverflowError.", "quantifier": "all dice with integer outcomes and positive weights in lowest terms, all counts, all lists of numbers, all explode depths, all reachable states (roll caches), all settings (for single places: highest first)", "why_tests_cant": "All dice, counts and depths: the formulas are closed forms over infinitely many distributions, which go through the doubling algorithm, order statistics, calls for every outcome, and recursion.", "anchors": ["src/roller.py:_roll_int_rv", "src/roller.py:_roll", "src/randvar.py:RV.mean", "src/randvar.py:RV.__rmatmul__", "src/funclib.py:count_in", "src/funclib.py:explode", "src/funclib.py:highest_N_of_D", "src/funclib.py:lowest_N_of_D", "src/funclib.py:highest_of_N_and_N"]}
{"id": "C76", "title": "What a program outputs does not depend on what was run before it", "statement": "The outputs of a program (or the exception it fails with) and the settings after it are determined by the program and the settings it begins with: whatever was rolled before (caches), however programs before it ended, and whatever was logged or printed. Hence after any programs and settings_reset() a program gives what it gives in a new interpreter; after programs that set nothing and succeeded it gives what it would have given before them; and a program that sets nothing and succeeds gives the same when it is run again. Without these conditions it is false: what a program sets stays set for the next one, and a program that fails inside a function leaves the depth of calls raised, so that after ten such failures every function gives a blank die.", "quantifier": "all programs (syntax trees, and texts as far as C63 goes), all lists of programs run before, all states of the caches, all settings; programs that set RV_IGNORE_ZERO_PROBS excluded", "why_tests_cant": "All programs and all histories of other programs: the state that leaks (roll cache, settings dictionary, depth counter) is changed by every roll and every call.", "anchors": ["src/roller.py:_roll_int_rv", "src/roller.py:_MEMOIZED_ROLLS", "src/settings.py:settings_set", "src/settings.py:settings_reset", "src/decorators.py:max_func_depth", "src/parser/parse_and_exec.py:unsafe_exec"]}
{"id": "C77", "title": "Rounding dice and dividing them with / act on the outcomes and keep the probabilities", "statement": "math.floor(X), math.ceil(X), math.trunc(X) and round(X) of a die with float outcomes have the floors, ceilings, integral parts and nearest integers (halves to even) of the outcomes of X, with their probabilities; they never fail; floor and ceil move the mean down and up by at most one, trunc lies between, round moves it by at most a half. On dice with int outcomes they give the same die; round(X, -k) gives the nearest multiples of 10^k. X / n, n / X and X / Y of dice with int outcomes have the floats nearest to the quotients as outcomes (without their fractional parts if RV_TRUNC is set), and raise exactly if a divisor is 0 or a quotient is too large for a float. math.floor(X / n) is the same die as X // n for ints below 2**53 unless RV_TRUNC is set; beyond that it is not.", "quantifier": "all dice with positive total weight, all numbers, all settings; for X / Y: unless a warning that probabilities were rounded was logged", "why_tests_cant": "All dice and divisors: correct rounding of quotients to doubles and its interplay with floor is a fact about all ints below 2**53.", "anchors": ["src/randvar.py:RV.__round__", "src/randvar.py:RV.__floor__", "src/randvar.py:RV.__ceil__", "src/randvar.py:RV.__trunc__", "src/randvar.py:RV.__truediv__", "src/randvar.py:RV.__rtruediv__", "src/randvar.py:RV._apply_operation"]}
{"id": "C78", "title": "The names of variables and functions do not matter", "statement": "If the variables and the words of the function names of a program are renamed, different names staying different and the words of the functions of the library being kept, the program does the same: it gives the same outputs, with the same names and in the same order, or fails with the same error, and leaves settings, caches and warnings the same. If the words of the six protected names are kept as well, the compiler accepts the renamed text exactly if it accepts the text, and the generated texts run by Python give the same. The last is false of some names: without NON_LOCAL_SCOPE a variable called T_N hides the type of that name in the generated text, and parameters are no longer converted; and a function called roll puts the library out of reach.", "quantifier": "all programs (syntax trees; texts as far as C63 goes), all injective renamings, all flags, all states", "why_tests_cant": "All programs and all renamings: a test has one set of names, and an accidental meaning of some other name (in the resolver, in Python, in the library) is not seen.", "anchors": ["src/parser/python_resolver.py:PythonResolver", "src/parser/parse_and_exec.py:compile_anydice", "src/parser/parse_and_exec.py:unsafe_exec", "src/decorators.py:anydice_casting"]}
{"id": "C79", "title": "Every die that a program outputs is in lowest terms", "statement": "Every die that any program outputs (before failing, too), in a new interpreter or after any other programs, has its outcomes strictly ascending, at least one, with one weight each. As long as no warning was logged that probabilities were reduced, all its weights are positive and have no common divisor; hence dice output by any two programs are equal (dices_are_equal, same outcomes and weights) exactly if they have the same probabilities. After a warning weights can be 0: an example squares the chance of a flag ten times.", "quantifier": "all programs (syntax trees, and all Python programs of the subset that the compiler writes, compiled or not), all flags, all lists of programs run before, all settings the programs set", "why_tests_cant": "All programs: a single operation, cast, roll from the cache or setting that leaves a die unreduced or with an impossible outcome shows only in programs that use its result in a way that no test does.", "anchors": ["src/randvar.py:RV.__init__", "src/randvar.py:RV.from_rvs", "src/randvar.py:RV._convolve", "src/randvar.py:_INTERNAL_PROB_LIMIT_VALS", "src/randvar.py:RV._get_kth_order_statistic", "src/roller.py:roll", "src/decorators.py:anydice_type_casting", "src/parser/parse_and_exec.py:unsafe_exec"]}
{"id": "C80", "title": "RV_IGNORE_ZERO_PROBS makes no difference to programs while nothing is rounded", "statement": "Run any programs one after the other in a new interpreter, setting RV_IGNORE_ZERO_PROBS to True or False before each of them in two different ways. If no warning that probabilities were reduced is logged the one way, none is logged the other way, and every program returns or raises the same, after the same outputs. After a warning it does matter: an outcome of weight 0 is kept the one way and dropped the other.", "quantifier": "all lists of programs (syntax trees, and all Python programs of the subset that the compiler writes, compiled or not), all ways to set RV_IGNORE_ZERO_PROBS before each of them, all flags", "why_tests_cant": "Two runs of all programs are compared; an operation that makes an outcome of weight 0 (an order statistic, a mixture, a cast) would differ only for programs that use it under both values of the setting, and the cache carries dice from one value over to the other.", "anchors": ["src/randvar.py:RV.__init__", "src/randvar.py:RV._sort_and_group", "src/randvar.py:RV._get_kth_order_statistic", "src/randvar.py:RV.from_rvs", "src/roller.py:_roll_int_rv", "src/settings.py:settings_set"]}
{"id": "C81", "title": "The printed table shows what enumeration gives", "statement": "output(x) of a number, sequence, die or blank prints a line with the name and mean ± deviation in hundredths (within 0.0051 for mean square up to a million), one line for each outcome with positive probability, in ascending order and no other, with its probability in percent to two decimals and a bar of proportional length, and a line of dashes; for a blank or an empty sequence only the name and the dashes. It changes no state. Hence from the source text of a program to the printed tables: each output of a program shows exactly the outcomes that are possible when all rolls are enumerated by hand, with exactly their probabilities up to the last printed digit; and whatever any Python program outputs without a warning can be printed.", "quantifier": "all objects, names without line breaks, widths below the float limit, states; all programs that enumeration describes (C66); all Python programs for the last part", "why_tests_cant": "The chain from text to table has a dozen stages; tests check single dice in single stages, while a wrong weight, a lost or duplicated outcome or a rounding in any stage must be excluded for all programs.", "anchors": ["src/output.py:output", "src/output.py:_output_blank", "src/factory.py:get_rv", "src/randvar.py:RV.get_vals_probs", "src/parser/parse_and_exec.py:unsafe_exec", "src/parser/parse_and_exec.py:compile_anydice"]}
{"id": "C82", "title": "Sequences are compared and shown by what is in them", "statement": "seqs_are_equal(s, t) of numbers and arbitrarily nested iterables is True if and only if they contain the same numbers in the same order followed by the same outcomes of dice, whatever the nesting; of sequences it agrees with ==; if one of the two is itself a die or a blank, and only then, it raises AssertionError. repr of a sequence is Seq(( and the numbers in decimal separated by a comma and a space and )), with a comma after a single number, and different sequences have different repr.", "quantifier": "all numbers, nested iterables, dice, sequences", "why_tests_cant": "Nesting depth, lengths and numbers are unbounded; injectivity of the text is a statement about all pairs.", "anchors": ["src/seq.py:Seq.seqs_are_equal", "src/seq.py:Seq.__repr__", "src/seq.py:Seq.__init__", "src/utils.py:flatten"]}
{"id": "C83", "title": "The probabilities are those of the textbook formulas", "statement": "For every die X: the k-th highest of n dice X is at least t with probability sum over i from k to n of choose(n,i)*p^i*(1-p)^(n-i), p = P(X >= t) (so the highest is with 1-(1-p)^n and the lowest with p^n); [highest of X and Y] is at most t with P(X<=t)*P(Y<=t) and [lowest of X and Y] at least t with P(X>=t)*P(Y>=t); [count v in ndX] is binomially distributed. n dice with m sides show s in total with probability the number of n-tuples of faces with that sum over m^n, which is de Moivre's sum over k of (-1)^k*choose(n,k)*choose(s-m*k-1,n-1) over m^n. [explode dM] with explode depth e shows M*i+v with probability 1/M^(i+1) for i up to e and v below M (or M if i = e).", "quantifier": "all dice in lowest terms with positive weights, all n, k, t, m, s, explode depths, all settings (position order highest first for the k-th highest), all reachable states; provided no warning was logged and the limiter of probabilities did not overflow", "why_tests_cant": "Numbers of dice, sides and outcomes are unbounded, and the formulas are sums of unbounded length; the algorithms in the code (convolution by repeated squaring, order statistics from multinomials, casting of arguments) are nothing like them.", "anchors": ["src/randvar.py:RV.__rmatmul__", "src/randvar.py:RV._get_kth_order_statistic", "src/roller.py:roll", "src/funclib.py:count_in", "src/funclib.py:explode", "src/funclib.py:highest_of_N_and_N", "src/funclib.py:lowest_of_N_and_N"]}
{"id": "C84", "title": "A program after another does what it does alone", "statement": "If a program uses no variable and no function of another (a variable that it assigns first may have the same name), then, written after it, the two output what the first outputs and then what the second outputs in the state that the first leaves; if either fails, the whole fails with the same exception, and if the first fails the second is not begun. If the first sets nothing, the second outputs what it outputs alone, and two such programs can be exchanged. The text of the two, with a new line between them, is read as the one program after the other, and is accepted if each is.", "quantifier": "all pairs of programs without results at top level, all states, all rules of execution, all depths of recursion", "why_tests_cant": "Pairs of programs of unbounded size, with loops, functions, recursion and every mixture of shared and unshared names.", "anchors": ["src/parser/parse_and_exec.py:unsafe_exec", "src/utils/python_resolver.py:PythonResolver", "src/parser/myparser.py:lexer rules"]}
{"id": "C85", "title": "What needs no rounding is computed without rounding", "statement": "A program that enumeration of all outcomes gives outputs for, and in which every law that comes up (values of operations and of functions, for every choice of random arguments) has a common denominator of at most 10^31 - for n dice the n-th power of the denominator of one die -, runs to its end: no warning is logged, nothing is raised, and the outputs are exactly those of the enumeration.", "quantifier": "all programs (without functions that output or set) and all reachable states without warnings, all settings and rules of execution; every sufficient depth of calls", "why_tests_cant": "The condition holds of infinitely many programs, with loops, recursion and random arguments of every size; that intermediate results of the algorithms (squaring of dice, order statistics, mixtures) stay within the bound if the laws do is a statement about all of them.", "anchors": ["src/randvar.py:_INTERNAL_PROB_LIMIT_VALS", "src/randvar.py:RV._apply_operation", "src/randvar.py:RV.from_rvs", "src/randvar.py:RV._get_kth_order_statistic", "src/roller.py:roll", "src/decorators.py:anydice_casting", "src/funclib.py"]}
{"id": "C86", "title": "Programs can be written down, and dice in texts have the textbook probabilities", "statement": "A sequence of tokens is that of some program text exactly if every token has the form of its kind and no part of a literal that is not a variable begins with one; tokens separated by spaces, parts of literals in quotes, are such a text. So every program that follows the grammar has a text, and what is made of this text is what is made of the program. For all numbers K, N, M (M^N up to 10^31), the texts `output NdM`, `output K@NdM` and `output [explode dM]` compile, Python can read the result, and running it logs no warning and outputs one die: with the probabilities (number of ways)/M^N, the binomial tail, and 1/M^(i+1).", "quantifier": "all sequences of tokens, all trees of the grammar; all numbers and all flags (for explode: where functions are not renamed)", "why_tests_cant": "There are infinitely many programs, tokens and numbers; that nothing the grammar allows is lost between lexer, parser, compiler, Python's reader and the interpreter is a statement about all of them.", "anchors": ["src/parser/myparser.py:36-121", "src/parser/parse_and_exec.py:do_lex", "src/parser/parse_and_exec.py:compile_anydice", "src/parser/parse_and_exec.py:unsafe_exec", "src/roller.py:roll", "src/randvar.py:RV.__rmatmul__", "src/funclib.py:explode"]}
{"id": "C87", "title": "Rounded probabilities are nearly right", "statement": "Weights whose total passes the limit are divided and rounded, so later results are not exact; how far off they are is bounded. An operation between two dice, a mixture, and each addition inside a roll adds at most N*1.1e-20 to the error, N being the number of outcomes (up to 9*10^9), for every event and every function with values from 0 to 1; errors of the operands are added, not multiplied. So after any history a roll of n dice with outcomes from lo to hi succeeds and has the law of the sum up to (n-1)*(n*(hi-lo)+1)*1.1e-20, an expression over D independent dice succeeds and has the law of its value up to (D-1)*N*1.1e-20, and for all numbers the program `output NdM` outputs a die whose probabilities are the textbook ones up to (N-1)*(N*(M-1)+1)*1.1e-20 (100d6: 10^-15), however large M^N is.", "quantifier": "all dice whose totals are within the limit, all numbers of dice and sides, all expressions, all settings and histories of rolls", "why_tests_cant": "Errors of repeated rounding can only be bounded by an argument over all operations and all orders in which the memo table was filled; tests with exact references are limited to totals below the limit, where nothing is rounded.", "anchors": ["src/randvar.py:_INTERNAL_PROB_LIMIT_VALS", "src/randvar.py:RV._convolve", "src/randvar.py:RV.from_rvs", "src/roller.py:roll", "src/roller.py:_roll_int_rv", "src/roller.py:_MEMOIZED_ROLLS"]}
{"id": "C88", "title": "What is not needed can be left out", "statement": "A part in the middle of a program that sets nothing, whose variables and functions are used neither by what comes after it nor by the functions before it, and that succeeds, has no influence on the rest: what comes after it fails or not, in the same way, and outputs the same as without the part; the part only adds its own outputs in its place. In particular an `output` in the middle never influences later ones, and an assignment to an unused variable can be removed. The beginning of a program that succeeds succeeds alone and outputs the first of its outputs. The condition on functions is needed: a function reads variables when it is called, and may set something.", "quantifier": "all programs before, in and after the part; all rules of scope, settings and histories of rolls", "why_tests_cant": "That removing a line changes nothing else depends on the memo table, the settings, the depth counter and the variables after any program; tests can only try some programs.", "anchors": ["src/parser/parse_and_exec.py:unsafe_exec", "src/roller.py:_MEMOIZED_ROLLS", "src/roller.py:roll", "src/decorators.py:max_func_depth", "src/settings.py:SETTINGS", "src/output.py:output", "src/parser/python_resolver.py:PythonResolver.resolve"]}
{"id": "C89", "title": "Parts that do not need each other can be exchanged", "statement": "Two parts of a program, one directly after the other, that set nothing, use nothing of each other, assign different variables and define different functions, and succeed after what is before them, can be exchanged: their outputs change places and what comes after them fails or not, in the same way, and outputs the same. In particular two adjacent outputs can be exchanged, and the same output twice gives the same entry twice.", "quantifier": "all programs before and after the two parts; all rules of scope, settings and histories of rolls", "why_tests_cant": "Independence of order is a statement about all pairs of programs and all states they are run in; tests try some orders of some programs.", "anchors": ["src/parser/parse_and_exec.py:unsafe_exec", "src/roller.py:_MEMOIZED_ROLLS", "src/roller.py:roll", "src/decorators.py:max_func_depth", "src/settings.py:SETTINGS", "src/output.py:output", "src/parser/python_resolver.py:PythonResolver.resolve"]}
{"id": "C90", "title": "Variables given to a program", "statement": "Without NON_LOCAL_SCOPE the entries of `global_vars` are the values of the program's variables at its beginning: executing the generated text with them gives the outputs and the error of the program run with these values, numbers that are given do what assignments in front of the text do, and only those variables matter that the program reads. With NON_LOCAL_SCOPE this fails: the program never sees what it is given (`output X` raises KeyError although X is given). An entry named like a function of the library hides it.", "quantifier": "all compiled texts, all values of all variables, all settings and histories of rolls", "why_tests_cant": "Tests give some variables to some programs; that the given values act exactly as initial variables, in functions and loops and for every program, is a statement about all executions.", "anchors": ["src/parser/parse_and_exec.py:unsafe_exec", "src/parser/parse_and_exec.py:_get_lib", "src/parser/python_resolver.py:PythonResolver.resolve"]}
{"id": "C91", "title": "A variable stands for the expression it was given", "statement": "After `X: e` the variable X can be replaced by (e) in what follows, anywhere outside strings and function bodies, in conditions, loops and arguments of calls: the program fails or not, in the same way, and outputs the same, as long as the part neither sets anything nor gives values to X or to what e needs, and e outputs nothing. If nothing uses X any more its definition can be left out, so `X: e output f` outputs what `output f` with (e) for X outputs. Variables hold dice, not rolled numbers: X + X are two independent copies, exactly as (e) + (e).", "quantifier": "all programs before, in and after the part; all expressions; all rules of scope, settings and histories of rolls", "why_tests_cant": "Referential transparency is a statement about all expressions in all programs and all states of the memo table, the depth counter and the settings; tests can only compare some pairs of programs.", "anchors": ["src/parser/parse_and_exec.py:unsafe_exec", "src/roller.py:_MEMOIZED_ROLLS", "src/roller.py:roll", "src/randvar.py:RV", "src/decorators.py:max_func_depth", "src/parser/python_resolver.py:PythonResolver.resolve"]}
{"id": "C92", "title": "Sequences of texts are sequences", "statement": "get_seq with a text among its arguments (or among the outcomes of its dice) makes a sequence that can be used as any other: its entries are the numbers and texts in their order followed by the outcomes of the dice, however deep the arguments are nested; it can be iterated, has a length, compared with a number it counts its entries (texts are greater than all numbers), and compared with a sequence it is compared entry by entry; k @ s selects the entry at position k, and operators add up its entries.", "quantifier": "all arguments of get_seq, nested in any way, with any texts, sums of texts and dice; all comparisons and operators; all other operands", "why_tests_cant": "Which attributes an object has is decided by the constructor of the subclass, and the tests of the repository only build such sequences and compare them for equality; they never select an entry or use an operator.", "anchors": ["src/factory.py:get_seq", "src/string_rvs.py:StringSeq", "src/seq.py:Seq._compare_to", "src/seq.py:Seq.__getitem__", "src/seq.py:Seq.__rmatmul__", "src/seq.py:Seq.sum", "src/utils.py:flatten"]}
{"id": "C93", "title": "A call stands for the body of the function", "statement": "A call of a function whose body is one result stands for that expression, with every parameter replaced by its argument in parentheses, all at once: in the place of the call, as what is output, given to a variable, tested or looped over, the program fails or not, in the same way, and outputs the same. The arguments must have values of the types of the parameters, the expression must call only functions of the library, and functions must not already be as deep as they may be.", "quantifier": "all programs before and after the call that set nothing before it, all definitions and bodies, all arguments (with dice, calls of other functions and variables named like parameters), both ways in which functions see variables, all earlier histories", "why_tests_cant": "A test fixes one function and its arguments. The substitution must be simultaneous, the argument may be evaluated any number of times or never, the memo and the depth of functions change in between, and the scope of variables differs between the two ways of compiling.", "anchors": ["src/decorators.py:anydice_type_casting", "src/decorators.py:max_func_depth", "src/parser/parse_and_exec.py:unsafe_exec", "src/roller.py:roll"]}
{"id": "C94", "title": "Loops and conditions mean what they abbreviate", "statement": "Parts of a program, anywhere in it and also in functions, can be written otherwise without changing what it does: a loop over numbers as its body for each of them, else if as a condition in else, a condition of known value as the block that is done, a number for a calculation with numbers, an expression without the parentheses around it. Outputs, errors and the state of the library afterwards are the same.", "quantifier": "all programs, all places in them, any number of such steps in both directions, all settings, both ways in which functions see variables, all states", "why_tests_cant": "A test compares two texts. The parts can stand in functions that call each other, in loops whose body gives a result, under any settings; the variables that belong to a function in Python must stay the same.", "anchors": ["src/parser/python_resolver.py:PythonResolver", "src/parser/parse_and_exec.py:unsafe_exec", "src/roller.py:myrange"]}
{"id": "C95", "title": "Better dice give better results", "statement": "If a die reaches every number with at least the same probability as another, then sums, products, comparisons, pools, the k-th highest of a pool, the k highest or lowest of a pool, the highest or lowest of two, expressions and function calls that grow with their dice are better in the same sense when made of the better dice; so are more sides, more dice that are never negative, higher places, the highest of more dice, the lowest of fewer. Minus reverses it. A die that explodes is at least as good as the die, if it is never negative.", "quantifier": "all dice of any size with any weights, all numbers of dice and places, all states the library can be in, both runs in different states; unless probabilities were rounded (logged) or overflowed", "why_tests_cant": "Tests compare a few fixed dice. That an order of distributions is kept by convolution, order statistics and mixtures is a statement about all pairs of dice and all thresholds at once, and a slip that moves a little weight is hardly seen in means.", "anchors": ["src/randvar.py:RV", "src/roller.py:roll", "src/funclib.py:highest_N_of_D", "src/decorators.py:anydice_type_casting"]}
{"id": "C96", "title": "Rolling and calling cost what they should", "statement": "Rolling n dice adds at most log2 n entries to the table of remembered rolls, for n and its successive halves only, and never one the table already has; the same roll again returns the same die at no cost, also after any programs have run, since nothing forgets a roll. A roll of n dice whose faces lie between a and b has at most n(b-a)+1 outcomes. A function is called exactly as often as the product of the numbers of values of its arguments: the outcomes of a die given for a number, the multisets (k+n-1 choose n) of a pool given for a sequence, one otherwise.", "quantifier": "all numbers of dice, dice, states of the table, programs, functions and arguments, also for rolls and programs that fail", "why_tests_cant": "Tests see that results are right, not what was done to get them: a memo table that is never hit, or is hit with another key, or a pool enumerated with repetitions gives the same results on small dice and takes forever on large ones.", "anchors": ["src/roller.py:_roll_int_rv", "src/roller.py:_MEMOIZED_ROLLS", "src/decorators.py:anydice_type_casting", "src/randvar.py:_get_expanded_possible_rolls"]}
{"id": "C97", "title": "The function library can be written in the language", "statement": "absolute, contains, count, reverse, maximum, highest and lowest of two, highest, lowest and middle of a pool, sort and explode can each be defined by a short program text (given in the statement, with helper functions for sort and explode); calling the function so defined gives exactly the object that the function of the library gives, or fails in the same way, and leaves the same state, for arguments of all kinds, including those that have to be converted (a die for a number, a pool for a sequence, a blank die). The only condition is that functions may still be called: the nesting of calls of own functions is limited, that of library functions is not.", "quantifier": "all arguments (numbers, sequences, dice, pools, blank dice), all states, all variables and other functions of the program, both treatments of variables and of numbers, all depths of explosion that the limit on nested calls allows", "why_tests_cant": "Two implementations in two languages are compared: the Python of src/funclib.py and the language of the programs, through conversion of arguments, loops, conditions, recursion and settings. Tests compare single values; here loops are of any length and recursion of any depth.", "anchors": ["src/funclib.py:absolute", "src/funclib.py:contains", "src/funclib.py:count_in", "src/funclib.py:reverse", "src/funclib.py:maximum_of", "src/funclib.py:explode", "src/funclib.py:highest_N_of_D", "src/funclib.py:middle_N_of_D", "src/funclib.py:sort", "src/decorators.py:anydice_casting"]}
{"id": "C98", "title": "A program can use nothing of Python but the runtime", "statement": "Whatever text is compiled: outside of its string literals, the resulting Python code contains no words but the keywords that the code generator writes, the functions of the runtime, functions that the program defines or that belong to the library, and variables, which are in capital letters; and no attribute of any object is used. So the text of a program cannot make unsafe_exec call any other function of Python.", "quantifier": "all texts that compile, with every combination of the flags for variables, operators and conflicts of names, with the existence check", "why_tests_cant": "The claim is about what cannot be in any output of the compiler, for every input text; a test shows only that some texts do no harm. It is false: a literal that ends with a backslash lets the content of the next literal be read as code.", "anchors": ["src/parser/python_resolver.py:PythonResolver.resolve_node", "src/parser/python_resolver.py:PythonResolver.resolve", "src/parser/parse_and_exec.py:compile_anydice", "src/parser/parse_and_exec.py:unsafe_exec", "src/parser/myparser.py:t_instring_INSTRING_ANY"]}
{"id": "C99", "title": "The token rules, as PLY and re run them, give the tokens that are meant", "statement": "lex() accepts the rules of myparser. For every text, the tokens that the lexer built from them returns (types, values, lines and positions), the characters it reports and the state and line it ends in are those of the direct description: comments up to the next backslash, maximal runs of digits, of small letters with the reserved words, of capitals, the symbols with != and .. before ! and ., and within quotes [NAME], a bracket with the text after it, or a run of text. The second pass over the same text gives the same tokens.", "quantifier": "all texts, all states and lines in which the lexer starts, every choice of the characters that count as digits", "why_tests_cant": "PLY sorts the rules and joins them to one regular expression for each state, which is matched with backtracking; which rule wins depends on the order, on greedy and lazy repetition and on the numbering of groups, for every possible text.", "anchors": ["src/parser/ply/lex.py:lex", "src/parser/ply/lex.py:LexerReflect.get_rules", "src/parser/ply/lex.py:_statetoken", "src/parser/ply/lex.py:_form_master_re", "src/parser/ply/lex.py:Lexer.token", "src/parser/myparser.py:tokens"]}
{"id": "C100", "title": "PLY's digraph algorithm gives the least solution, and with it the tables of the parser", "statement": "For every finite relation and every assignment of tokens, digraph (DeRemer and Pennello: depth first search with a stack, low numbers and components) returns for each node exactly the tokens of the nodes that can be reached from it; that is the least solution of F(x) = F'(x) + union of F(y) over x R y. With the sets it gives for the grammar of myparser, LRTable builds the tables that the claims about the parser are proved from.", "quantifier": "all finite sets of nodes (fewer than sys.maxsize), all relations on them, all token assignments", "why_tests_cant": "Cycles, components that share nodes and the order of traversal decide when a set is complete; a test sees one relation, and a missing lookahead token shows only in programs that need it.", "anchors": ["src/parser/ply/yacc.py:digraph", "src/parser/ply/yacc.py:traverse", "src/parser/ply/yacc.py:LRTable.dr_relation", "src/parser/ply/yacc.py:LRTable.reads_relation", "src/parser/ply/yacc.py:LRTable.compute_read_sets", "src/parser/ply/yacc.py:LRTable.compute_follow_sets", "src/parser/ply/yacc.py:LRTable.add_lalr_lookaheads"]}
{"id": "C101", "title": "PLY's parsing loop, with its stacks and its recovery from errors, parses the language", "statement": "LRParser.parse, run with the tables that LRTable builds and the state numbers it gives them, ends on the tokens of every text. It returns a tree without reporting an error exactly if the text is a program of the language, and then the tree of that program; after errors it reports the tokens and returns what the short parser of the model gives, in which a recovery is one step.", "quantifier": "all texts, all classifications of characters as digits; any tables that differ in the numbers of their states", "why_tests_cant": "Recovery goes through several turns with a synthetic token, a stack of lookaheads and a counter that suppresses reports; states with one reduction skip the lookahead. Tests parse correct programs and a handful of wrong ones.", "anchors": ["src/parser/ply/yacc.py:LRParser.parse", "src/parser/ply/yacc.py:LRParser.set_defaulted_states", "src/parser/ply/yacc.py:LRTable.lr0_items", "src/parser/myparser.py:p_error"]}
{"id": "C102", "title": "The numbers in the header of an output read back", "statement": "For every die whose mean and variance are doubles, the header line is two numbers around ' ± '. Each is a float as Python writes it (an exponent exactly below 1e-4 and from 1e16 on, with at least two digits), and reading it gives the double nearest to the mean or deviation rounded to hundredths. For every double, the text reads back as that double, no number that reads back has fewer digits, and of those with as many digits none is closer; different doubles have different texts.", "quantifier": "all doubles, normal and subnormal; all dice, all settings", "why_tests_cant": "There are 2^64 doubles, and the hard ones are the powers of two, where the nearest short decimal does not read back but its neighbour does.", "anchors": ["src/output.py:output", "src/randvar.py:RV.mean", "src/randvar.py:RV.std"]}
{"id": "C103", "title": "compile_anydice on top of PLY does what the description of it says", "statement": "For every text and all flags, compile_anydice as it runs - the lexer that PLY builds from the rules goes over the text, then the loop of PLY's parser, with the tables PLY builds, asks the same lexer for one token after the other, tokens carrying positions and lines - ends, and gives the generated text or the exception with the entries of LEX_ILLEGAL_CHARS and YACC_ILLEGALs that the short model of compile_anydice gives; nothing else can come out.", "quantifier": "all texts, all flags, all sets of digits", "why_tests_cant": "The two passes share the state and the line counter of one lexer object, and the parser recovers from errors while it pulls tokens; the combinations of these are unbounded.", "anchors": ["src/parser/parse_and_exec.py:compile_anydice", "src/parser/parse_and_exec.py:do_lex", "src/parser/parse_and_exec.py:do_yacc", "src/parser/myparser.py:p_error", "src/parser/ply/lex.py:Lexer.token", "src/parser/ply/yacc.py:LRParser.parse"]}
{"id": "C104", "title": "The table of factorial changes no value, only how deep the recursion goes", "statement": "After every history of calls of factorial, failed ones included, a call with n returns n! (1 for n at most 1) if Python has the frames it needs left, and raises RecursionError otherwise. In a fresh process it needs n frames; if factorials up to m are known it needs n-m+1, and one for n up to m. A failed call leaves the table as it was. The value is the one that the enumeration of pools uses.", "quantifier": "all histories of calls, all arguments (negative ones too), all numbers of frames left", "why_tests_cant": "The table is module state that depends on everything that was called before; that the recursion ends at the largest known value, not at 1, is visible only in long histories.", "anchors": ["src/utils.py:factorial", "src/randvar.py:RV._get_expanded_possible_rolls"]}
{"id": "C105", "title": "roller samples according to the die", "statement": "If random() returns each of its 2^53 values equally often, then the probability that roller(X) returns a value up to v differs from that according to X by at most 5/2^53, for values in an interval and for a single value by at most 10/2^53. Rolls of roller(X, n) are independent: the probability of outcomes in an order is exactly the product of their probabilities in single rolls.", "quantifier": "all dice with increasing values and positive total weight below the overflow of floats, all thresholds, intervals and values, all numbers of rolls", "why_tests_cant": "The floats in random.choices move the thresholds, and 2^53 values per roll cannot be enumerated; a test with samples has errors of a different order.", "anchors": ["src/roller.py:roller"]}
