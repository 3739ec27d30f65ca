{
"C01": {
"status": "proved",
"note": ""
},
"C02": {
"status": "proved",
"note": ""
},
"C03": {
"status": "proved",
"note": ""
},
"C04": {
"status": "proved",
"note": ""
},
"C05": {
"status": "proved",
"note": ""
},
"C06": {
"status": "proved",
"note": "true division and negative powers give floats, which the integer model does not represent"
},
"C07": {
"status": "proved",
"note": "associativity is stated for positive total weights (or zero weights kept)"
},
"C08": {
"status": "proved",
"note": ""
},
"C09": {
"status": "proved",
"note": ""
},
"C10": {
"status": "proved",
"note": ""
},
"C100": {
"status": "proved",
"note": "C100_digraph is the algorithm for all relations; C100_solution and C100_least say that it is the least solution; C100_tables is about the grammar. C100_unshared: lists are values in the model; the second pass appends to lists of the first, which would matter only if READS had cycles."
},
"C101": {
"status": "proved",
"note": "C101_parse is the equivalence, C101_language and C101_ends its consequences, C101_numbers the independence of the numbering. Position attributes, debugging and tracking of PLY are left out."
},
"C102": {
"status": "proved",
"note": "repr of floats is part of CPython; the model searches the shortest decimal, and C102_shortest proves that the search finds it. C71 says for dice that are not too large how the text looks and how far the deviation can be off."
},
"C103": {
"status": "proved",
"note": "This joins C99 (lexer), C100 (tables) and C101 (loop); every theorem about compile is with it one about the code on top of PLY."
},
"C104": {
"status": "proved",
"note": "Frames are counted from the call on; how many of Python's recursion limit are used up before is not modelled."
},
"C105": {
"status": "proved",
"note": "random() is taken to return each multiple of 1/2^53 equally often and independently (trusted: the Mersenne Twister)."
},
"C11": {
"status": "partial",
"note": "False as stated: C11_history_counterexample (the memo key ignores rvIgnoreZeroProbs). Proved for histories in which that setting never changes, and for any history up to the law."
},
"C12": {
"status": "partial",
"note": "Proved for n >= 2 (or one die that is not itself a pool) with coprime weights, zero weights absent or kept. False otherwise: C12_pool_counterexample (roll(1, pool) is the pool), C12_zero_weight_counterexample (IndexError)."
},
"C13": {
"status": "partial",
"note": "Proved for 'highest first' (several positions are always counted from the highest); false for 'lowest first': C13_lowest_first_counterexample."
},
"C14": {
"status": "proved",
"note": ""
},
"C15": {
"status": "proved",
"note": ""
},
"C16": {
"status": "proved",
"note": ""
},
"C17": {
"status": "proved",
"note": ""
},
"C18": {
"status": "partial",
"note": "False as stated: C18_exception_counterexample (no try/finally). Proved when no caught exception has left a decorated function."
},
"C19": {
"status": "proved",
"note": ""
},
"C20": {
"status": "partial",
"note": "Proved for every k != 1, and for k = 1 with 'highest first' and coprime weights. False for k = 1 with 'lowest first': C20_lowest_first_counterexample."
},
"C21": {
"status": "proved",
"note": ""
},
"C22": {
"status": "partial",
"note": "Selecting digits of a negative number raises ValueError: C22_negative_counterexample. The rest is proved."
},
"C23": {
"status": "proved",
"note": ""
},
"C24": {
"status": "proved",
"note": ""
},
"C25": {
"status": "proved",
"note": ""
},
"C26": {
"status": "proved",
"note": "std() is proved up to the final math.sqrt: the number under the root is within rounding error of the variance. Outcomes are ints."
},
"C27": {
"status": "partial",
"note": "Without cut: proved. With cut: proved for dice without outcome 0, the removed probability being below cut up to the rounding error of the code's own float additions; with outcome 0 it is false: C27_cut_counterexample."
},
"C28": {
"status": "proved",
"note": ""
},
"C29": {
"status": "proved",
"note": ""
},
"C30": {
"status": "proved",
"note": "bool values are accepted for integer settings (True is an int in Python); the theorem states this."
},
"C31": {
"status": "partial",
"note": "Proved except for operators between an ordinary and a special blank, whose sides disagree: C31_mixed_counterexample."
},
"C32": {
"status": "proved",
"note": "Coefficients are ints. 0 is not neutral: 'a' + 0 differs from 'a' (C32_zero_not_neutral)."
},
"C33": {
"status": "partial",
"note": "False as stated: the hash uses the insertion order of the dictionary, so equal outcomes built in different orders hash differently and filter misses them (C33_hash_counterexample, C33_filter_counterexample). Proved for equal insertion orders and for single strings."
},
"C34": {
"status": "proved",
"note": "ASCII strings."
},
"C35": {
"status": "partial",
"note": "Emitted texts are read by a separate lexer and parser with Python's precedences. C35_structure_partial: the reading is exactly the tree the expression stands for, for every grammatical expression and all flags, unless a comparison is chained, & or | is applied to an unparenthesised comparison without the operator-on-int flag, the base of a power is a power or signed, a number has leading zeros, or a function is named like a keyword; each exception has a counterexample theorem. C35_source_partial carries this from source text through the modelled LALR tables (C57, C58)."
},
"C36": {
"status": "proved",
"note": "Over all signatures with words a-z; both modes."
},
"C37": {
"status": "partial",
"note": "Protected names never collide and the assertion is unreachable (proved); len, get_seq, vars, type names as variables and library calls in prefix mode are counterexamples."
},
"C38": {
"status": "proved",
"note": "Also the exact condition of acceptance, with and without the prefix."
},
"C39": {
"status": "partial",
"note": "False in general: backslashes, carriage returns and null characters are not escaped and the empty literal disappears (C39_backslash_counterexample, C39_quote_counterexample, C39_return_counterexample, C39_empty_counterexample). Proved for all other literals, from source characters to the value of the f-string."
},
"C40": {
"status": "partial",
"note": "The removal of blank lines is proved for all texts; block structure for all programs whose literals contain no carriage return (C40_return_counterexample)."
},
"C41": {
"status": "partial",
"note": "Proved when repeated parameters are typed, with the exact condition; untyped repeated parameters raise IndexError (counterexample)."
},
"C42": {
"status": "proved",
"note": "PLY's loop over the rules of myparser.py as they are tried; \\d is a parameter that agrees with 0-9 on ASCII."
},
"C43": {
"status": "partial",
"note": "Proved whenever at least one outcome is listed (always, without a cut); with a cut that removes everything (constant 0) rendering raises: C43_cut_counterexample. The text of mean and deviation in the header is the subject of C71."
},
"C44": {
"status": "partial",
"note": "Positive weight and count proved; interval lengths are exact when random()*total needs no rounding, else off by at most 2^-51."
},
"C45": {
"status": "proved",
"note": ""
},
"C46": {
"status": "partial",
"note": "As stated the property is false (two counterexamples). Proved: a roll renames at most the object it returns; the object is new unless n = 1 or the roll is memoised; with int arguments only, names never change. Missing: the general statement, which fails."
},
"C47": {
"status": "partial",
"note": "Proved except that the sign of a negative number raises ValueError: C47_sign_counterexample."
},
"C48": {
"status": "partial",
"note": "Proved for dice without a recorded source; false for roll(RV, d): C48_counterexample."
},
"C49": {
"status": "proved",
"note": ""
},
"C50": {
"status": "proved",
"note": "~X inspects the listed outcomes: C50_invert_counterexample shows a die that is 0 with probability 1 but lists a zero-weight outcome"
},
"C51": {
"status": "proved",
"note": ""
},
"C52": {
"status": "proved",
"note": "Expressions whose dice have a product of total weights within the limit 10^300 used by the code; operators undefined for some outcome (division by zero) are excluded by hypothesis. Between two numbers Python's own (bitwise) & and | apply."
},
"C53": {
"status": "partial",
"note": "Offset and column proved; the line is wrong after comments containing newlines (counterexample), proved right otherwise."
},
"C54": {
"status": "proved",
"note": "Objects are numbers, integer sequences, dice and blanks (Model/SeqOps.lean, Model/Roll.lean)."
},
"C55": {
"status": "proved",
"note": "Integer sequences; true division gives a float, outside the model, and counts as undefined."
},
"C56": {
"status": "proved",
"note": "Heap model of named dice (Model/StrAlias.lean); C56_die is for an int count."
},
"C57": {
"status": "proved",
"note": "The tables are those computed by the model of PLY's LALR construction from the grammar, and are checked to be so by the kernel."
},
"C58": {
"status": "proved",
"note": ""
},
"C59": {
"status": "proved",
"note": "Termination, soundness and completeness of compile_anydice against the written programs of C57 and the spec of accepted programs."
},
"C60": {
"status": "partial",
"note": "False as stated (C60_function_counterexample); C60_assertions_partial shows that the three exceptions are the only ones."
},
"C61": {
"status": "partial",
"note": "The claim about lines is false (C61_line_counterexample, C61_line_partial gives the exact wrong line); the rest is proved. A syntax error at the end of the text records no token."
},
"C62": {
"status": "partial",
"note": "Proved for programs with plain literals, operands that need no parentheses, function and type names that are no keywords of Python, and no result: outside of functions; counterexamples for the last two here, for the others under C39 and C35."
},
"C63": {
"status": "partial",
"note": "Proved by a simulation between the Python interpreter of the model and a run of the program on its tree, for programs whose names have no other meaning in Python, with parameter types n, s, d, without nested functions and without strings in expressions, and with what is missing of C62; counterexamples for true div under NON_LOCAL_SCOPE and for other parameter types."
},
"C64": {
"status": "partial",
"note": "Proved for programs that do not set the maximal depth (the names of settings they set are written out), also how deep they are after an error (C64_failed_partial); counterexample: a function that sets it never ends. Programs that run out of nothing are proved to do the same with more nested calls (C64_more_calls), whatever they set."
},
"C65": {
"status": "partial",
"note": "Success, the flags used, unknown flags and what happens to the caller's dictionary are proved for all inputs; that compiling again with the same dictionary gives the same is false (counterexample) and proved for dictionaries without flags."
},
"C66": {
"status": "partial",
"note": "Proved for all programs whose functions output nothing and set no settings, and without strings and decimals, if no probabilities were rounded; settings (also the position order) may be changed outside functions. For dice of a random number of dice under #, @ and sequence parameters it is false (counterexample)."
},
"C67": {
"status": "partial",
"note": "C67_logged_bound_counterexample: the property as stated is false. C67_logged_bound_partial: the error of any event is at most (1 + 2^-50) * number of outcomes * logged bound."
},
"C68": {
"status": "partial",
"note": "C68_random_counterexample, C68_blank_counterexample: false when the number of dice is a die or blank. Proved for numbers and sequences (C68_left_partial) and for factors before it (C68_factor)."
},
"C69": {
"status": "proved",
"note": "Integer coefficients; sums and pools of a number of dice (not pools of random numbers of string dice). Exceptions lose the memo table in the model of the roll."
},
"C70": {
"status": "partial",
"note": "Proved for every program that the enumeration semantics describes, as run on its tree and as the compiled text is run. Missing: functions that output or change settings, strings and decimals, dice of a random number of dice where it matters what they are made of; how deep is deep enough is not computed if the program sets the maximal depth."
},
"C71": {
"status": "partial",
"note": "False as stated for the deviation: the outcomes 10^8 and 10^8+10 deviate by 5 and the header says 5.1 (C71_deviation_counterexample). Proved: form of the text, error bounds for mean and deviation (C71_header_partial), both within 0.0051 for dice with mean square at most a million (C71_small), certain numbers exactly (C71_constant), the lines of the whole text (C71_lines_partial, except cuts that leave nothing, as in C43)."
},
"C72": {
"status": "partial",
"note": "Laws and positional calls: proved in full. TypeError for bad calls: false if one of the arguments is a blank die for a number or a sequence (C72_bad_call_counterexample), else proved (C72_bad_call_partial)."
},
"C73": {
"status": "partial",
"note": "False as stated: strings that contain + or *, or that do not begin with a letter, can be shown like other outcomes (C73_number_counterexample), and a cut then removes too much (C73_cut_counterexample). Proved for numbers, sums of strings that begin with a letter and contain neither + nor *, and single strings that look like numbers (C73_distinct_partial, C73_cut_partial); the number 0 is always cut, as in C27. The text itself, the list without a cut and the rendering are proved for all dice with string outcomes."
},
"C74": {
"status": "proved",
"note": "Proved identity by identity, as equality of outcomes and weights, for every pair of reachable states. The counterexample shows why the counts must have one sign. Selection identities are for pools of at least two dice."
},
"C75": {
"status": "proved",
"note": "Proved formula by formula for every reachable state; HasMean ties the mean to what mean() returns (C26). Selections and counts are for pools of at least two dice."
},
"C76": {
"status": "partial",
"note": "False as stated: settings set by a program stay set (C76_set_counterexample) and a failure inside a function leaves the depth of calls raised (C76_failed_counterexample). Proved: dependence on the noticeable settings only (C76_history_partial), after settings_reset (C76_after_reset), after successful programs that set nothing (C76_after_success, C76_again), for compiled text (C76_text_partial). Missing: programs that change RV_IGNORE_ZERO_PROBS (C11_history_counterexample)."
},
"C77": {
"status": "proved",
"note": "floats are the rationals they are; NaN, infinities and the sign of zero are not modelled; round(X, n) of float outcomes only for n = 0"
},
"C78": {
"status": "partial",
"note": "Proved for running trees and for acceptance of texts; for the generated text run by Python as far as C63 goes. False of names that mean something in Python (T_N)."
},
"C79": {
"status": "proved",
"note": "C79_run, C79_outputs, C79_same for syntax trees; C79_exec, C79_exec_outputs, C79_exec_same for all Python programs of the modelled subset, whatever they were compiled from. A program stops with the error unmodelled where it uses what the model of Python leaves out (strings or lists as operands, other builtins)."
},
"C80": {
"status": "proved",
"note": "C80_run for lists of syntax trees, C80_exec for lists of Python programs of the modelled subset, whatever they were compiled from (they stop with the error unmodelled where they use what the model of Python leaves out)."
},
"C81": {
"status": "partial",
"note": "C81_object (all objects, names, widths, states) and C81_exec (all Python programs of the modelled subset) are proved in full; C81_program_partial and C81_text_partial carry what is missing of C66 and C63."
},
"C82": {
"status": "proved",
"note": ""
},
"C83": {
"status": "proved",
"note": ""
},
"C84": {
"status": "partial",
"note": "the claims about running are proved without restriction; acceptance of the two texts is false if a program defines a function with a protected name (C84_accepts_counterexample), otherwise proved; the claim about the generated texts inherits what is missing of C63"
},
"C85": {
"status": "proved",
"note": "source texts (C85_text_partial): without functions in functions and strings in expressions, as in C63"
},
"C86": {
"status": "proved",
"note": "what programs in general do (C86_runs_partial): without functions in functions and strings in expressions, as in C63"
},
"C87": {
"status": "proved",
"note": ""
},
"C88": {
"status": "proved",
"note": "On trees for all programs (C88_unneeded, C88_output, C88_assign); C88_text_partial carries it to compiled texts where C63 applies."
},
"C89": {
"status": "proved",
"note": "On trees for all programs (C89_exchange, C89_outputs, C89_twice); C89_text_partial carries it to compiled texts where C63 applies."
},
"C90": {
"status": "partial",
"note": "Holds without NON_LOCAL_SCOPE (C90_given_partial, C90_text_partial, where C63 applies; C90_assigned, C90_reads for all programs); with NON_LOCAL_SCOPE it is false (C90_nonlocal_counterexample) and what is given is ignored (C90_ignored_partial). C90_hidden_counterexample: an entry can hide the library."
},
"C91": {
"status": "proved",
"note": "On trees for all programs (C91_replace, C91_inline, C91_output); C91_text_partial carries it to compiled texts where C63 applies; C91_needed shows that the conditions are needed."
},
"C92": {
"status": "partial",
"note": "False of selections and operators: StringSeq.__init__ does not call Seq.__init__, so s[k], k @ s, s + x, ~s and the comparison with a die raise AttributeError for every sequence of texts (C92_select_counterexample, C92_operators_counterexample); even after set_one_indexed, {k} @ s differs from k @ s by a constant 0 (C92_position_counterexample). Entries, length, nesting, counting and comparisons hold in full (C92_nested, C92_entries, C92_count, C92_count_left, C92_same, C92_same_numbers, C92_order); selections hold once set_one_indexed was called (C92_select_partial, C92_positions_partial)."
},
"C93": {
"status": "partial",
"note": "Programs, as syntax trees: proved in full (C93_inline). For texts, compiled and executed by Python, C93_text_partial misses what is missing of C63 and functions with protected names. C93_needed: the hypotheses on types and depth cannot be left out."
},
"C94": {
"status": "partial",
"note": "Programs, as syntax trees: proved in full (C94_rewritten). For texts, compiled and executed by Python, C94_text_partial misses what is missing of C63 and functions with protected names. C94_needed: without NON_LOCAL_SCOPE blocks that are never done cannot be left out if they give values to variables."
},
"C95": {
"status": "proved",
"note": "C95_explode_counterexample: exploding dice cannot be compared with each other in this way (6 sides and 4 sides; the 4-sided reach 6 more often). C95_more_needed: more dice are better only if none is negative."
},
"C96": {
"status": "proved",
"note": "C96_program: syntax trees; C96_python: every program of the modelled fragment of Python."
},
"C97": {
"status": "proved",
"note": "The texts are given in Verif/Spec/OwnLibrary.lean and C97_text_* prove that they are read as these definitions; C97_expression is about expressions that call them; C97_deep_counterexample: the condition on nested calls is needed."
},
"C98": {
"status": "partial",
"note": "False as stated: C98_backslash_counterexample is a program text that compiles to code which calls print, C98_type_counterexample one in which the name of a function of Python becomes an annotation. Proved for all texts whose literals contain no backslash and no carriage return, with words given as types among the allowed words (C98_words_partial), and without attributes (C98_attributes_partial)."
},
"C99": {
"status": "proved",
"note": "C99_language relates the model of re to the languages of regular expressions; C99_tokenizer is the refinement of Model/Lexer.lean; C99_new and C99_second_pass are its consequences for do_lex and do_yacc."
}
}
