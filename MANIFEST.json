{
 "claims": [
  {
   "property": "C01",
   "status": "proved",
   "theorems": [
    "PythonDice.C01_constructor_canonical"
   ],
   "note": ""
  },
  {
   "property": "C02",
   "status": "proved",
   "theorems": [
    "PythonDice.C02_constructor_preserves_law",
    "PythonDice.C02_constructor_probability",
    "PythonDice.C02_constructor_support"
   ],
   "note": ""
  },
  {
   "property": "C03",
   "status": "proved",
   "theorems": [
    "PythonDice.C03_constructor_accepts",
    "PythonDice.C03_constructor_invariance",
    "PythonDice.C03_constructor_perm",
    "PythonDice.C03_constructor_scale"
   ],
   "note": ""
  },
  {
   "property": "C04",
   "status": "proved",
   "theorems": [
    "PythonDice.C04_dices_equal_iff",
    "PythonDice.C04_dices_equal_iff_law",
    "PythonDice.C04_dices_equal_args"
   ],
   "note": ""
  },
  {
   "property": "C05",
   "status": "proved",
   "theorems": [
    "PythonDice.C05_binop_law",
    "PythonDice.C05_binop_raises",
    "PythonDice.C05_binop_succeeds"
   ],
   "note": ""
  },
  {
   "property": "C06",
   "status": "proved",
   "theorems": [
    "PythonDice.C06_die_op_object",
    "PythonDice.C06_object_op_die",
    "PythonDice.C06_binop_number",
    "PythonDice.C06_number_binop"
   ],
   "note": "true division and negative powers give floats, which the integer model does not represent"
  },
  {
   "property": "C07",
   "status": "proved",
   "theorems": [
    "PythonDice.C07_add_comm",
    "PythonDice.C07_mul_comm",
    "PythonDice.C07_cmp_swap",
    "PythonDice.C07_add_assoc",
    "PythonDice.C07_mul_assoc",
    "PythonDice.C07_lt_add_ge"
   ],
   "note": "associativity is stated for positive total weights (or zero weights kept)"
  },
  {
   "property": "C08",
   "status": "proved",
   "theorems": [
    "PythonDice.C08_from_rvs_law",
    "PythonDice.C08_from_rvs_blank",
    "PythonDice.C08_from_rvs_succeeds"
   ],
   "note": ""
  },
  {
   "property": "C09",
   "status": "proved",
   "theorems": [
    "PythonDice.C09_roll_law",
    "PythonDice.C09_roll_succeeds",
    "PythonDice.C09_roll_trivial"
   ],
   "note": ""
  },
  {
   "property": "C10",
   "status": "proved",
   "theorems": [
    "PythonDice.C10_roll_sides_pos",
    "PythonDice.C10_roll_sides_neg",
    "PythonDice.C10_roll_sides_zero",
    "PythonDice.C10_roll_seq_faces",
    "PythonDice.C10_roll_seq_succeeds",
    "PythonDice.C10_roll_seq_count",
    "PythonDice.C10_roll_compound"
   ],
   "note": ""
  },
  {
   "property": "C11",
   "status": "partial",
   "theorems": [
    "PythonDice.C11_history_counterexample",
    "PythonDice.C11_roll_history_partial",
    "PythonDice.C11_roll_any_history_partial"
   ],
   "note": "False as stated: C11_history_counterexample (the memo key ignores rvIgnoreZeroProbs). Proved for histories in which that setting never changes, and for any history up to the law."
  },
  {
   "property": "C12",
   "status": "partial",
   "theorems": [
    "PythonDice.C12_kth_partial",
    "PythonDice.C12_pool_counterexample",
    "PythonDice.C12_zero_weight_counterexample",
    "PythonDice.C12_coprime_needed"
   ],
   "note": "Proved for n >= 2 (or one die that is not itself a pool) with coprime weights, zero weights absent or kept. False otherwise: C12_pool_counterexample (roll(1, pool) is the pool), C12_zero_weight_counterexample (IndexError)."
  },
  {
   "property": "C13",
   "status": "partial",
   "theorems": [
    "PythonDice.C13_select_partial",
    "PythonDice.C13_select_one_partial",
    "PythonDice.C13_lowest_first_counterexample"
   ],
   "note": "Proved for 'highest first' (several positions are always counted from the highest); false for 'lowest first': C13_lowest_first_counterexample."
  },
  {
   "property": "C14",
   "status": "proved",
   "theorems": [
    "PythonDice.C14_enumeration",
    "PythonDice.C14_pool_call"
   ],
   "note": ""
  },
  {
   "property": "C15",
   "status": "proved",
   "theorems": [
    "PythonDice.C15_cast_law",
    "PythonDice.C15_cast_law_pure",
    "PythonDice.C15_no_dice",
    "PythonDice.C15_calls"
   ],
   "note": ""
  },
  {
   "property": "C16",
   "status": "proved",
   "theorems": [
    "PythonDice.C16_blank_arg",
    "PythonDice.C16_blank_passed",
    "PythonDice.C16_conditional",
    "PythonDice.C16_all_blank"
   ],
   "note": ""
  },
  {
   "property": "C17",
   "status": "proved",
   "theorems": [
    "PythonDice.C17_beyond_limit",
    "PythonDice.C17_within_limit",
    "PythonDice.C17_levels",
    "PythonDice.C17_warning_once",
    "PythonDice.C17_depth_restored"
   ],
   "note": ""
  },
  {
   "property": "C18",
   "status": "partial",
   "theorems": [
    "PythonDice.C18_exception_counterexample",
    "PythonDice.C18_contained_partial"
   ],
   "note": "False as stated: C18_exception_counterexample (no try/finally). Proved when no caught exception has left a decorated function."
  },
  {
   "property": "C19",
   "status": "proved",
   "theorems": [
    "PythonDice.C19_explode"
   ],
   "note": ""
  },
  {
   "property": "C20",
   "status": "partial",
   "theorems": [
    "PythonDice.C20_highest_partial",
    "PythonDice.C20_lowest_partial",
    "PythonDice.C20_middle_partial",
    "PythonDice.C20_lowest_first_counterexample"
   ],
   "note": "Proved for every k != 1, and for k = 1 with 'highest first' and coprime weights. False for k = 1 with 'lowest first': C20_lowest_first_counterexample."
  },
  {
   "property": "C21",
   "status": "proved",
   "theorems": [
    "PythonDice.C21_absolute",
    "PythonDice.C21_absolute_num",
    "PythonDice.C21_contains",
    "PythonDice.C21_count_in",
    "PythonDice.C21_contains_count_plain",
    "PythonDice.C21_highest",
    "PythonDice.C21_lowest",
    "PythonDice.C21_highest_lowest_num"
   ],
   "note": ""
  },
  {
   "property": "C22",
   "status": "partial",
   "theorems": [
    "PythonDice.C22_index",
    "PythonDice.C22_select",
    "PythonDice.C22_digits_partial",
    "PythonDice.C22_negative_counterexample"
   ],
   "note": "Selecting digits of a negative number raises ValueError: C22_negative_counterexample. The rest is proved."
  },
  {
   "property": "C23",
   "status": "proved",
   "theorems": [
    "PythonDice.C23_seq_number",
    "PythonDice.C23_number_seq",
    "PythonDice.C23_seq_eq",
    "PythonDice.C23_seq_ne",
    "PythonDice.C23_seq_order",
    "PythonDice.C23_seq_die"
   ],
   "note": ""
  },
  {
   "property": "C24",
   "status": "proved",
   "theorems": [
    "PythonDice.C24_contents",
    "PythonDice.C24_nesting",
    "PythonDice.C24_idempotent",
    "PythonDice.C24_blank"
   ],
   "note": ""
  },
  {
   "property": "C25",
   "status": "proved",
   "theorems": [
    "PythonDice.C25_sort_reverse",
    "PythonDice.C25_reverse_slow",
    "PythonDice.C25_sort_slow",
    "PythonDice.C25_involution_idempotent"
   ],
   "note": ""
  },
  {
   "property": "C26",
   "status": "proved",
   "theorems": [
    "PythonDice.C26_mean",
    "PythonDice.C26_variance",
    "PythonDice.C26_std",
    "PythonDice.C26_std_none",
    "PythonDice.C26_additive"
   ],
   "note": "std() is proved up to the final math.sqrt: the number under the root is within rounding error of the variance. Outcomes are ints."
  },
  {
   "property": "C27",
   "status": "partial",
   "theorems": [
    "PythonDice.C27_pdf",
    "PythonDice.C27_cut_partial",
    "PythonDice.C27_cut_counterexample"
   ],
   "note": "Without cut: proved. With cut: proved for dice without outcome 0, the removed probability being below cut up to the rounding error of the code's own float additions; with outcome 0 it is false: C27_cut_counterexample."
  },
  {
   "property": "C28",
   "status": "proved",
   "theorems": [
    "PythonDice.C28_reduction_threshold",
    "PythonDice.C28_reduction_bound"
   ],
   "note": ""
  },
  {
   "property": "C29",
   "status": "proved",
   "theorems": [
    "PythonDice.C29_filter_law",
    "PythonDice.C29_filter_empty",
    "PythonDice.C29_filter_support"
   ],
   "note": ""
  },
  {
   "property": "C30",
   "status": "proved",
   "theorems": [
    "PythonDice.C30_set",
    "PythonDice.C30_set_functional",
    "PythonDice.C30_reset",
    "PythonDice.C30_reachable",
    "PythonDice.C30_record",
    "PythonDice.C30_default_record"
   ],
   "note": "bool values are accepted for integer settings (True is an int in Python); the theorem states this."
  },
  {
   "property": "C31",
   "status": "partial",
   "theorems": [
    "PythonDice.C31_right_partial",
    "PythonDice.C31_left_partial",
    "PythonDice.C31_special_partial",
    "PythonDice.C31_same",
    "PythonDice.C31_mixed_counterexample"
   ],
   "note": "Proved except for operators between an ordinary and a special blank, whose sides disagree: C31_mixed_counterexample."
  },
  {
   "property": "C32",
   "status": "proved",
   "theorems": [
    "PythonDice.C32_eq",
    "PythonDice.C32_order",
    "PythonDice.C32_numbers_first",
    "PythonDice.C32_strings_alphabetical",
    "PythonDice.C32_add_coef",
    "PythonDice.C32_add_number",
    "PythonDice.C32_add",
    "PythonDice.C32_zero_not_neutral",
    "PythonDice.C32_dice"
   ],
   "note": "Coefficients are ints. 0 is not neutral: 'a' + 0 differs from 'a' (C32_zero_not_neutral)."
  },
  {
   "property": "C33",
   "status": "partial",
   "theorems": [
    "PythonDice.C33_hash_counterexample",
    "PythonDice.C33_filter_counterexample",
    "PythonDice.C33_hash_partial",
    "PythonDice.C33_membership_partial"
   ],
   "note": "False as stated: the hash uses the insertion order of the dictionary, so equal outcomes built in different orders hash differently and filter misses them (C33_hash_counterexample, C33_filter_counterexample). Proved for equal insertion orders and for single strings."
  },
  {
   "property": "C34",
   "status": "proved",
   "theorems": [
    "PythonDice.C34_ndm",
    "PythonDice.C34_dm",
    "PythonDice.C34_raises",
    "PythonDice.C34_only",
    "PythonDice.C34_exactly"
   ],
   "note": "ASCII strings."
  },
  {
   "property": "C35",
   "status": "partial",
   "theorems": [
    "PythonDice.C35_source_partial",
    "PythonDice.C35_structure_partial",
    "PythonDice.C35_clean",
    "PythonDice.C35_chain_counterexample",
    "PythonDice.C35_logic_counterexample",
    "PythonDice.C35_power_counterexample",
    "PythonDice.C35_sign_counterexample",
    "PythonDice.C35_zeros_counterexample",
    "PythonDice.C35_keyword_counterexample"
   ],
   "note": "Emitted texts are read by a separate lexer and parser with Python's precedences. C35_structure_partial: the reading is exactly the tree the expression stands for, for every grammatical expression and all flags, unless a comparison is chained, & or | is applied to an unparenthesised comparison without the operator-on-int flag, the base of a power is a power or signed, a number has leading zeros, or a function is named like a keyword; each exception has a counterexample theorem. C35_source_partial carries this from source text through the modelled LALR tables (C57, C58)."
  },
  {
   "property": "C36",
   "status": "proved",
   "theorems": [
    "PythonDice.C36_source",
    "PythonDice.C36_link",
    "PythonDice.C36_definitions",
    "PythonDice.C36_library"
   ],
   "note": "Over all signatures with words a-z; both modes."
  },
  {
   "property": "C37",
   "status": "partial",
   "theorems": [
    "PythonDice.C37_assertion",
    "PythonDice.C37_runtime_partial",
    "PythonDice.C37_protected",
    "PythonDice.C37_len_counterexample",
    "PythonDice.C37_get_seq_counterexample",
    "PythonDice.C37_library_counterexample",
    "PythonDice.C37_variable_counterexample"
   ],
   "note": "Protected names never collide and the assertion is unreachable (proved); len, get_seq, vars, type names as variables and library calls in prefix mode are counterexamples."
  },
  {
   "property": "C38",
   "status": "proved",
   "theorems": [
    "PythonDice.C38_accepted",
    "PythonDice.C38_exactly",
    "PythonDice.C38_exactly_prefixed"
   ],
   "note": "Also the exact condition of acceptance, with and without the prefix."
  },
  {
   "property": "C39",
   "status": "partial",
   "theorems": [
    "PythonDice.C39_literals_partial",
    "PythonDice.C39_backslash_counterexample",
    "PythonDice.C39_quote_counterexample",
    "PythonDice.C39_return_counterexample",
    "PythonDice.C39_empty_counterexample"
   ],
   "note": "False in general: backslashes, carriage returns and null characters are not escaped and the empty literal disappears (C39_backslash_counterexample, C39_quote_counterexample, C39_return_counterexample, C39_empty_counterexample). Proved for all other literals, from source characters to the value of the f-string."
  },
  {
   "property": "C40",
   "status": "partial",
   "theorems": [
    "PythonDice.C40_blocks_partial",
    "PythonDice.C40_blank",
    "PythonDice.C40_return_counterexample",
    "PythonDice.C40_source_partial"
   ],
   "note": "The removal of blank lines is proved for all texts; block structure for all programs whose literals contain no carriage return (C40_return_counterexample)."
  },
  {
   "property": "C41",
   "status": "partial",
   "theorems": [
    "PythonDice.C41_renamed_partial",
    "PythonDice.C41_untyped",
    "PythonDice.C41_counterexample",
    "PythonDice.C41_programs"
   ],
   "note": "Proved when repeated parameters are typed, with the exact condition; untyped repeated parameters raise IndexError (counterexample)."
  },
  {
   "property": "C42",
   "status": "proved",
   "theorems": [
    "PythonDice.C42_lossless",
    "PythonDice.C42_render",
    "PythonDice.C42_layout",
    "PythonDice.C42_unclosed",
    "PythonDice.C42_illegal"
   ],
   "note": "PLY's loop over the rules of myparser.py as they are tried; \\d is a parameter that agrees with 0-9 on ASCII."
  },
  {
   "property": "C43",
   "status": "partial",
   "theorems": [
    "PythonDice.C43_elements",
    "PythonDice.C43_lines_partial",
    "PythonDice.C43_all_outcomes",
    "PythonDice.C43_blank",
    "PythonDice.C43_default_width",
    "PythonDice.C43_cut_counterexample"
   ],
   "note": "Proved whenever at least one outcome is listed (always, without a cut); with a cut that removes everything (constant 0) rendering raises: C43_cut_counterexample. The text of mean and deviation in the header is the subject of C71."
  },
  {
   "property": "C44",
   "status": "partial",
   "theorems": [
    "PythonDice.C44_roller_partial",
    "PythonDice.C44_exact",
    "PythonDice.C44_roller_count",
    "PythonDice.C44_blank",
    "PythonDice.C44_number"
   ],
   "note": "Positive weight and count proved; interval lengths are exact when random()*total needs no rounding, else off by at most 2^-51."
  },
  {
   "property": "C45",
   "status": "proved",
   "theorems": [
    "PythonDice.C45_default",
    "PythonDice.C45_gwf",
    "PythonDice.C45_gwf_sides"
   ],
   "note": ""
  },
  {
   "property": "C46",
   "status": "partial",
   "theorems": [
    "PythonDice.C46_only_result_partial",
    "PythonDice.C46_result_new_partial",
    "PythonDice.C46_ints_stable_partial",
    "PythonDice.C46_renamed_by_use_counterexample",
    "PythonDice.C46_renamed_by_memo_counterexample",
    "PythonDice.C46_renamed_inside_counterexample"
   ],
   "note": "As stated the property is false (two counterexamples). Proved: a roll renames at most the object it returns; the object is new unless n = 1 or the roll is memoised; with int arguments only, names never change. Missing: the general statement, which fails."
  },
  {
   "property": "C47",
   "status": "partial",
   "theorems": [
    "PythonDice.C47_matmul_partial",
    "PythonDice.C47_matmul_negative_partial",
    "PythonDice.C47_sign_counterexample",
    "PythonDice.C47_len",
    "PythonDice.C47_logic"
   ],
   "note": "Proved except that the sign of a negative number raises ValueError: C47_sign_counterexample."
  },
  {
   "property": "C48",
   "status": "partial",
   "theorems": [
    "PythonDice.C48_first_partial",
    "PythonDice.C48_sequence_partial",
    "PythonDice.C48_counterexample"
   ],
   "note": "Proved for dice without a recorded source; false for roll(RV, d): C48_counterexample."
  },
  {
   "property": "C49",
   "status": "proved",
   "theorems": [
    "PythonDice.C49_cdf",
    "PythonDice.C49_cdf_zeros"
   ],
   "note": ""
  },
  {
   "property": "C50",
   "status": "proved",
   "theorems": [
    "PythonDice.C50_neg_law",
    "PythonDice.C50_abs_law",
    "PythonDice.C50_pos",
    "PythonDice.C50_invert_listed",
    "PythonDice.C50_invert",
    "PythonDice.C50_invert_counterexample"
   ],
   "note": "~X inspects the listed outcomes: C50_invert_counterexample shows a die that is 0 with probability 1 but lists a zero-weight outcome"
  },
  {
   "property": "C51",
   "status": "proved",
   "theorems": [
    "PythonDice.C51_range",
    "PythonDice.C51_die"
   ],
   "note": ""
  },
  {
   "property": "C52",
   "status": "proved",
   "theorems": [
    "PythonDice.C52_expression"
   ],
   "note": "Expressions whose dice have a product of total weights within the limit 10^300 used by the code; operators undefined for some outcome (division by zero) are excluded by hypothesis. Between two numbers Python's own (bitwise) & and | apply."
  },
  {
   "property": "C53",
   "status": "partial",
   "theorems": [
    "PythonDice.C53_position",
    "PythonDice.C53_line_counterexample",
    "PythonDice.C53_line_partial"
   ],
   "note": "Offset and column proved; the line is wrong after comments containing newlines (counterexample), proved right otherwise."
  },
  {
   "property": "C54",
   "status": "proved",
   "theorems": [
    "PythonDice.C54_roll",
    "PythonDice.C54_select",
    "PythonDice.C54_position",
    "PythonDice.C54_unary"
   ],
   "note": "Objects are numbers, integer sequences, dice and blanks (Model/SeqOps.lean, Model/Roll.lean)."
  },
  {
   "property": "C55",
   "status": "proved",
   "theorems": [
    "PythonDice.C55_arithmetic",
    "PythonDice.C55_die",
    "PythonDice.C55_unary"
   ],
   "note": "Integer sequences; true division gives a float, outside the model, and counts as undefined."
  },
  {
   "property": "C56",
   "status": "proved",
   "theorems": [
    "PythonDice.C56_sides",
    "PythonDice.C56_faces",
    "PythonDice.C56_die",
    "PythonDice.C56_nested",
    "PythonDice.C56_sign_lost"
   ],
   "note": "Heap model of named dice (Model/StrAlias.lean); C56_die is for an int count."
  },
  {
   "property": "C57",
   "status": "proved",
   "theorems": [
    "PythonDice.C57_exactly",
    "PythonDice.C57_source",
    "PythonDice.C57_unique",
    "PythonDice.C57_unambiguous"
   ],
   "note": "The tables are those computed by the model of PLY's LALR construction from the grammar, and are checked to be so by the kernel."
  },
  {
   "property": "C58",
   "status": "proved",
   "theorems": [
    "PythonDice.C58_precedence",
    "PythonDice.C58_die",
    "PythonDice.C58_unary"
   ],
   "note": ""
  },
  {
   "property": "C59",
   "status": "proved",
   "theorems": [
    "PythonDice.C59_parser_ends",
    "PythonDice.C59_compile",
    "PythonDice.C59_accepts"
   ],
   "note": "Termination, soundness and completeness of compile_anydice against the written programs of C57 and the spec of accepted programs."
  },
  {
   "property": "C60",
   "status": "partial",
   "theorems": [
    "PythonDice.C60_function_counterexample",
    "PythonDice.C60_assertions_partial"
   ],
   "note": "False as stated (C60_function_counterexample); C60_assertions_partial shows that the three exceptions are the only ones."
  },
  {
   "property": "C61",
   "status": "partial",
   "theorems": [
    "PythonDice.C61_first",
    "PythonDice.C61_sound",
    "PythonDice.C61_line_counterexample",
    "PythonDice.C61_line_partial"
   ],
   "note": "The claim about lines is false (C61_line_counterexample, C61_line_partial gives the exact wrong line); the rest is proved. A syntax error at the end of the text records no token."
  },
  {
   "property": "C62",
   "status": "partial",
   "theorems": [
    "PythonDice.C62_reads_partial",
    "PythonDice.C62_result_counterexample",
    "PythonDice.C62_keyword_counterexample"
   ],
   "note": "Proved for programs with plain literals, operands that need no parentheses, function and type names that are no keywords of Python, and no result: outside of functions; counterexamples for the last two here, for the others under C39 and C35."
  },
  {
   "property": "C63",
   "status": "partial",
   "theorems": [
    "PythonDice.C63_run_partial",
    "PythonDice.C63_true_div_counterexample",
    "PythonDice.C63_type_counterexample"
   ],
   "note": "Proved by a simulation between the Python interpreter of the model and a run of the program on its tree, for programs whose names have no other meaning in Python, with parameter types n, s, d, without nested functions and without strings in expressions, and with what is missing of C62; counterexamples for true div under NON_LOCAL_SCOPE and for other parameter types."
  },
  {
   "property": "C64",
   "status": "partial",
   "theorems": [
    "PythonDice.C64_depth_partial",
    "PythonDice.C64_failed_partial",
    "PythonDice.C64_run_partial",
    "PythonDice.C64_more_calls",
    "PythonDice.C64_text_partial",
    "PythonDice.C64_set_counterexample"
   ],
   "note": "Proved for programs that do not set the maximal depth (the names of settings they set are written out), also how deep they are after an error (C64_failed_partial); counterexample: a function that sets it never ends. Programs that run out of nothing are proved to do the same with more nested calls (C64_more_calls), whatever they set."
  },
  {
   "property": "C65",
   "status": "partial",
   "theorems": [
    "PythonDice.C65_flags",
    "PythonDice.C65_unknown",
    "PythonDice.C65_dict",
    "PythonDice.C65_again_partial",
    "PythonDice.C65_second",
    "PythonDice.C65_twice_counterexample"
   ],
   "note": "Success, the flags used, unknown flags and what happens to the caller's dictionary are proved for all inputs; that compiling again with the same dictionary gives the same is false (counterexample) and proved for dictionaries without flags."
  },
  {
   "property": "C66",
   "status": "partial",
   "theorems": [
    "PythonDice.C66_laws_partial",
    "PythonDice.C66_text_partial",
    "PythonDice.C66_random_pool_counterexample"
   ],
   "note": "Proved for all programs whose functions output nothing and set no settings, and without strings and decimals, if no probabilities were rounded; settings (also the position order) may be changed outside functions. For dice of a random number of dice under #, @ and sequence parameters it is false (counterexample)."
  },
  {
   "property": "C67",
   "status": "partial",
   "theorems": [
    "PythonDice.C67_logged_bound_partial",
    "PythonDice.C67_logged_bound_counterexample"
   ],
   "note": "C67_logged_bound_counterexample: the property as stated is false. C67_logged_bound_partial: the error of any event is at most (1 + 2^-50) * number of outcomes * logged bound."
  },
  {
   "property": "C68",
   "status": "partial",
   "theorems": [
    "PythonDice.C68_left_partial",
    "PythonDice.C68_factor",
    "PythonDice.C68_random_counterexample",
    "PythonDice.C68_blank_counterexample"
   ],
   "note": "C68_random_counterexample, C68_blank_counterexample: false when the number of dice is a die or blank. Proved for numbers and sequences (C68_left_partial) and for factors before it (C68_factor)."
  },
  {
   "property": "C69",
   "status": "proved",
   "theorems": [
    "PythonDice.C69_add",
    "PythonDice.C69_roll",
    "PythonDice.C69_roll_negative",
    "PythonDice.C69_add_number",
    "PythonDice.C69_from_seq"
   ],
   "note": "Integer coefficients; sums and pools of a number of dice (not pools of random numbers of string dice). Exceptions lose the memo table in the model of the roll."
  },
  {
   "property": "C70",
   "status": "partial",
   "theorems": [
    "PythonDice.C70_ends_partial",
    "PythonDice.C70_text_partial"
   ],
   "note": "Proved for every program that the enumeration semantics describes, as run on its tree and as the compiled text is run. Missing: functions that output or change settings, strings and decimals, dice of a random number of dice where it matters what they are made of; how deep is deep enough is not computed if the program sets the maximal depth."
  },
  {
   "property": "C71",
   "status": "partial",
   "theorems": [
    "PythonDice.C71_header_partial",
    "PythonDice.C71_small",
    "PythonDice.C71_lines_partial",
    "PythonDice.C71_constant",
    "PythonDice.C71_nan",
    "PythonDice.C71_none",
    "PythonDice.C71_deviation_counterexample"
   ],
   "note": "False as stated for the deviation: the outcomes 10^8 and 10^8+10 deviate by 5 and the header says 5.1 (C71_deviation_counterexample). Proved: form of the text, error bounds for mean and deviation (C71_header_partial), both within 0.0051 for dice with mean square at most a million (C71_small), certain numbers exactly (C71_constant), the lines of the whole text (C71_lines_partial, except cuts that leave nothing, as in C43)."
  },
  {
   "property": "C72",
   "status": "partial",
   "theorems": [
    "PythonDice.C72_law",
    "PythonDice.C72_positional",
    "PythonDice.C72_bad_call_partial",
    "PythonDice.C72_bad_call_counterexample"
   ],
   "note": "Laws and positional calls: proved in full. TypeError for bad calls: false if one of the arguments is a blank die for a number or a sequence (C72_bad_call_counterexample), else proved (C72_bad_call_partial)."
  },
  {
   "property": "C73",
   "status": "partial",
   "theorems": [
    "PythonDice.C73_text",
    "PythonDice.C73_distinct_partial",
    "PythonDice.C73_pdf",
    "PythonDice.C73_cut_partial",
    "PythonDice.C73_lines",
    "PythonDice.C73_number_counterexample",
    "PythonDice.C73_cut_counterexample"
   ],
   "note": "False as stated: strings that contain + or *, or that do not begin with a letter, can be shown like other outcomes (C73_number_counterexample), and a cut then removes too much (C73_cut_counterexample). Proved for numbers, sums of strings that begin with a letter and contain neither + nor *, and single strings that look like numbers (C73_distinct_partial, C73_cut_partial); the number 0 is always cut, as in C27. The text itself, the list without a cut and the rendering are proved for all dice with string outcomes."
  },
  {
   "property": "C74",
   "status": "proved",
   "theorems": [
    "PythonDice.C74_roll_add",
    "PythonDice.C74_roll_roll",
    "PythonDice.C74_roll_neg",
    "PythonDice.C74_roll_of_neg",
    "PythonDice.C74_roll_of_sum",
    "PythonDice.C74_roll_of_multiple",
    "PythonDice.C74_roll_of_shift",
    "PythonDice.C74_random_count",
    "PythonDice.C74_sub",
    "PythonDice.C74_sub_swap",
    "PythonDice.C74_neg_neg",
    "PythonDice.C74_comm",
    "PythonDice.C74_assoc",
    "PythonDice.C74_distrib",
    "PythonDice.C74_complement",
    "PythonDice.C74_mirrored",
    "PythonDice.C74_absolute_neg",
    "PythonDice.C74_highest_of_neg",
    "PythonDice.C74_highest_of_comm",
    "PythonDice.C74_highest_of_two",
    "PythonDice.C74_lowest_of_two",
    "PythonDice.C74_position_order",
    "PythonDice.C74_all_places",
    "PythonDice.C74_highest_lowest",
    "PythonDice.C74_all_highest",
    "PythonDice.C74_signs_counterexample"
   ],
   "note": "Proved identity by identity, as equality of outcomes and weights, for every pair of reachable states. The counterexample shows why the counts must have one sign. Selection identities are for pools of at least two dice."
  },
  {
   "property": "C75",
   "status": "proved",
   "theorems": [
    "PythonDice.C75_roll_mean",
    "PythonDice.C75_roll_variance",
    "PythonDice.C75_random_count_mean",
    "PythonDice.C75_random_count_variance",
    "PythonDice.C75_product_mean",
    "PythonDice.C75_comparison_mean",
    "PythonDice.C75_places",
    "PythonDice.C75_highest_lowest",
    "PythonDice.C75_highest_of_mean",
    "PythonDice.C75_count_mean",
    "PythonDice.C75_explode_mean",
    "PythonDice.C75_absolute_mean"
   ],
   "note": "Proved formula by formula for every reachable state; HasMean ties the mean to what mean() returns (C26). Selections and counts are for pools of at least two dice."
  },
  {
   "property": "C76",
   "status": "partial",
   "theorems": [
    "PythonDice.C76_history_partial",
    "PythonDice.C76_after_reset",
    "PythonDice.C76_after_success",
    "PythonDice.C76_again",
    "PythonDice.C76_text_partial",
    "PythonDice.C76_set_counterexample",
    "PythonDice.C76_failed_counterexample"
   ],
   "note": "False as stated: settings set by a program stay set (C76_set_counterexample) and a failure inside a function leaves the depth of calls raised (C76_failed_counterexample). Proved: dependence on the noticeable settings only (C76_history_partial), after settings_reset (C76_after_reset), after successful programs that set nothing (C76_after_success, C76_again), for compiled text (C76_text_partial). Missing: programs that change RV_IGNORE_ZERO_PROBS (C11_history_counterexample)."
  },
  {
   "property": "C77",
   "status": "proved",
   "theorems": [
    "PythonDice.C77_floor",
    "PythonDice.C77_ceil",
    "PythonDice.C77_trunc",
    "PythonDice.C77_round",
    "PythonDice.C77_rounding_succeeds",
    "PythonDice.C77_rounding_mean",
    "PythonDice.C77_integral",
    "PythonDice.C77_round_tens",
    "PythonDice.C77_div_number",
    "PythonDice.C77_number_div",
    "PythonDice.C77_div_dice",
    "PythonDice.C77_floor_div",
    "PythonDice.C77_floor_div_counterexample",
    "PythonDice.C77_floor_div_trunc_counterexample"
   ],
   "note": "floats are the rationals they are; NaN, infinities and the sign of zero are not modelled; round(X, n) of float outcomes only for n = 0"
  },
  {
   "property": "C78",
   "status": "partial",
   "theorems": [
    "PythonDice.C78_run",
    "PythonDice.C78_accepts",
    "PythonDice.C78_exec_partial",
    "PythonDice.C78_type_counterexample",
    "PythonDice.C78_protected_counterexample"
   ],
   "note": "Proved for running trees and for acceptance of texts; for the generated text run by Python as far as C63 goes. False of names that mean something in Python (T_N)."
  },
  {
   "property": "C79",
   "status": "proved",
   "theorems": [
    "PythonDice.C79_run",
    "PythonDice.C79_outputs",
    "PythonDice.C79_exec",
    "PythonDice.C79_exec_outputs",
    "PythonDice.C79_same",
    "PythonDice.C79_exec_same",
    "PythonDice.C79_warned_counterexample"
   ],
   "note": "C79_run, C79_outputs, C79_same for syntax trees; C79_exec, C79_exec_outputs, C79_exec_same for all Python programs of the modelled subset, whatever they were compiled from. A program stops with the error unmodelled where it uses what the model of Python leaves out (strings or lists as operands, other builtins)."
  },
  {
   "property": "C80",
   "status": "proved",
   "theorems": [
    "PythonDice.C80_run",
    "PythonDice.C80_exec",
    "PythonDice.C80_warned_counterexample"
   ],
   "note": "C80_run for lists of syntax trees, C80_exec for lists of Python programs of the modelled subset, whatever they were compiled from (they stop with the error unmodelled where they use what the model of Python leaves out)."
  },
  {
   "property": "C81",
   "status": "partial",
   "theorems": [
    "PythonDice.C81_object",
    "PythonDice.C81_program_partial",
    "PythonDice.C81_text_partial",
    "PythonDice.C81_exec"
   ],
   "note": "C81_object (all objects, names, widths, states) and C81_exec (all Python programs of the modelled subset) are proved in full; C81_program_partial and C81_text_partial carry what is missing of C66 and C63."
  },
  {
   "property": "C82",
   "status": "proved",
   "theorems": [
    "PythonDice.C82_equal",
    "PythonDice.C82_die",
    "PythonDice.C82_operator",
    "PythonDice.C82_repr",
    "PythonDice.C82_repr_form"
   ],
   "note": ""
  },
  {
   "property": "C83",
   "status": "proved",
   "theorems": [
    "PythonDice.C83_place",
    "PythonDice.C83_highest",
    "PythonDice.C83_lowest",
    "PythonDice.C83_highest_of",
    "PythonDice.C83_count",
    "PythonDice.C83_ways",
    "PythonDice.C83_moivre",
    "PythonDice.C83_explode"
   ],
   "note": ""
  },
  {
   "property": "C84",
   "status": "partial",
   "theorems": [
    "PythonDice.C84_then",
    "PythonDice.C84_fails",
    "PythonDice.C84_alone",
    "PythonDice.C84_exchange",
    "PythonDice.C84_source",
    "PythonDice.C84_accepts_partial",
    "PythonDice.C84_text_partial",
    "PythonDice.C84_variable_counterexample",
    "PythonDice.C84_function_counterexample",
    "PythonDice.C84_free_counterexample",
    "PythonDice.C84_accepts_counterexample"
   ],
   "note": "the claims about running are proved without restriction; acceptance of the two texts is false if a program defines a function with a protected name (C84_accepts_counterexample), otherwise proved; the claim about the generated texts inherits what is missing of C63"
  },
  {
   "property": "C85",
   "status": "proved",
   "theorems": [
    "PythonDice.C85_exact",
    "PythonDice.C85_any_depth",
    "PythonDice.C85_text_partial",
    "PythonDice.C85_bound_needed"
   ],
   "note": "source texts (C85_text_partial): without functions in functions and strings in expressions, as in C63"
  },
  {
   "property": "C86",
   "status": "proved",
   "theorems": [
    "PythonDice.C86_write",
    "PythonDice.C86_tokens",
    "PythonDice.C86_tree",
    "PythonDice.C86_runs_partial",
    "PythonDice.C86_dice",
    "PythonDice.C86_place",
    "PythonDice.C86_explode"
   ],
   "note": "what programs in general do (C86_runs_partial): without functions in functions and strings in expressions, as in C63"
  },
  {
   "property": "C87",
   "status": "proved",
   "theorems": [
    "PythonDice.C87_op",
    "PythonDice.C87_mix",
    "PythonDice.C87_roll",
    "PythonDice.C87_dice",
    "PythonDice.C87_expression",
    "PythonDice.C87_text"
   ],
   "note": ""
  },
  {
   "property": "C88",
   "status": "proved",
   "theorems": [
    "PythonDice.C88_beginning",
    "PythonDice.C88_unneeded",
    "PythonDice.C88_output",
    "PythonDice.C88_assign",
    "PythonDice.C88_text_partial",
    "PythonDice.C88_function_counterexample",
    "PythonDice.C88_sets_counterexample"
   ],
   "note": "On trees for all programs (C88_unneeded, C88_output, C88_assign); C88_text_partial carries it to compiled texts where C63 applies."
  },
  {
   "property": "C89",
   "status": "proved",
   "theorems": [
    "PythonDice.C89_exchange",
    "PythonDice.C89_outputs",
    "PythonDice.C89_twice",
    "PythonDice.C89_text_partial",
    "PythonDice.C89_assign_counterexample"
   ],
   "note": "On trees for all programs (C89_exchange, C89_outputs, C89_twice); C89_text_partial carries it to compiled texts where C63 applies."
  },
  {
   "property": "C90",
   "status": "partial",
   "theorems": [
    "PythonDice.C90_given_partial",
    "PythonDice.C90_none",
    "PythonDice.C90_assigned",
    "PythonDice.C90_reads",
    "PythonDice.C90_text_partial",
    "PythonDice.C90_ignored_partial",
    "PythonDice.C90_nonlocal_counterexample",
    "PythonDice.C90_hidden_counterexample"
   ],
   "note": "Holds without NON_LOCAL_SCOPE (C90_given_partial, C90_text_partial, where C63 applies; C90_assigned, C90_reads for all programs); with NON_LOCAL_SCOPE it is false (C90_nonlocal_counterexample) and what is given is ignored (C90_ignored_partial). C90_hidden_counterexample: an entry can hide the library."
  },
  {
   "property": "C91",
   "status": "proved",
   "theorems": [
    "PythonDice.C91_replace",
    "PythonDice.C91_inline",
    "PythonDice.C91_output",
    "PythonDice.C91_text_partial",
    "PythonDice.C91_needed"
   ],
   "note": "On trees for all programs (C91_replace, C91_inline, C91_output); C91_text_partial carries it to compiled texts where C63 applies; C91_needed shows that the conditions are needed."
  },
  {
   "property": "C92",
   "status": "partial",
   "theorems": [
    "PythonDice.C92_nested",
    "PythonDice.C92_entries",
    "PythonDice.C92_count",
    "PythonDice.C92_count_left",
    "PythonDice.C92_same",
    "PythonDice.C92_same_numbers",
    "PythonDice.C92_order",
    "PythonDice.C92_order_numbers",
    "PythonDice.C92_select_counterexample",
    "PythonDice.C92_operators_counterexample",
    "PythonDice.C92_select_partial",
    "PythonDice.C92_positions_partial",
    "PythonDice.C92_position_counterexample"
   ],
   "note": "False of selections and operators: StringSeq.__init__ does not call Seq.__init__, so s[k], k @ s, s + x, ~s and the comparison with a die raise AttributeError for every sequence of texts (C92_select_counterexample, C92_operators_counterexample); even after set_one_indexed, {k} @ s differs from k @ s by a constant 0 (C92_position_counterexample). Entries, length, nesting, counting and comparisons hold in full (C92_nested, C92_entries, C92_count, C92_count_left, C92_same, C92_same_numbers, C92_order); selections hold once set_one_indexed was called (C92_select_partial, C92_positions_partial)."
  },
  {
   "property": "C93",
   "status": "partial",
   "theorems": [
    "PythonDice.C93_inline",
    "PythonDice.C93_text_partial",
    "PythonDice.C93_needed"
   ],
   "note": "Programs, as syntax trees: proved in full (C93_inline). For texts, compiled and executed by Python, C93_text_partial misses what is missing of C63 and functions with protected names. C93_needed: the hypotheses on types and depth cannot be left out."
  },
  {
   "property": "C94",
   "status": "partial",
   "theorems": [
    "PythonDice.C94_rewritten",
    "PythonDice.C94_text_partial",
    "PythonDice.C94_needed"
   ],
   "note": "Programs, as syntax trees: proved in full (C94_rewritten). For texts, compiled and executed by Python, C94_text_partial misses what is missing of C63 and functions with protected names. C94_needed: without NON_LOCAL_SCOPE blocks that are never done cannot be left out if they give values to variables."
  },
  {
   "property": "C95",
   "status": "proved",
   "theorems": [
    "PythonDice.C95_means",
    "PythonDice.C95_same",
    "PythonDice.C95_mean",
    "PythonDice.C95_sides",
    "PythonDice.C95_roll",
    "PythonDice.C95_roll_negative",
    "PythonDice.C95_more",
    "PythonDice.C95_random_count",
    "PythonDice.C95_minus",
    "PythonDice.C95_add",
    "PythonDice.C95_sub",
    "PythonDice.C95_mul",
    "PythonDice.C95_beats",
    "PythonDice.C95_highest_of",
    "PythonDice.C95_highest_of_better",
    "PythonDice.C95_absolute",
    "PythonDice.C95_place",
    "PythonDice.C95_highest",
    "PythonDice.C95_lowest",
    "PythonDice.C95_explode",
    "PythonDice.C95_explode_counterexample",
    "PythonDice.C95_more_needed",
    "PythonDice.C95_expression",
    "PythonDice.C95_call"
   ],
   "note": "C95_explode_counterexample: exploding dice cannot be compared with each other in this way (6 sides and 4 sides; the 4-sided reach 6 more often). C95_more_needed: more dice are better only if none is negative."
  },
  {
   "property": "C96",
   "status": "proved",
   "theorems": [
    "PythonDice.C96_entries",
    "PythonDice.C96_again",
    "PythonDice.C96_remembered",
    "PythonDice.C96_remembers",
    "PythonDice.C96_program",
    "PythonDice.C96_python",
    "PythonDice.C96_after_programs",
    "PythonDice.C96_distinct",
    "PythonDice.C96_outcomes",
    "PythonDice.C96_calls"
   ],
   "note": "C96_program: syntax trees; C96_python: every program of the modelled fragment of Python."
  },
  {
   "property": "C97",
   "status": "proved",
   "theorems": [
    "PythonDice.C97_absolute",
    "PythonDice.C97_contains",
    "PythonDice.C97_count",
    "PythonDice.C97_reverse",
    "PythonDice.C97_maximum",
    "PythonDice.C97_highest_of",
    "PythonDice.C97_lowest_of",
    "PythonDice.C97_highest",
    "PythonDice.C97_lowest",
    "PythonDice.C97_middle",
    "PythonDice.C97_sort",
    "PythonDice.C97_explode",
    "PythonDice.C97_explode_setting",
    "PythonDice.C97_expression",
    "PythonDice.C97_deep_counterexample",
    "PythonDice.C97_text_absolute",
    "PythonDice.C97_text_contains",
    "PythonDice.C97_text_count",
    "PythonDice.C97_text_reverse",
    "PythonDice.C97_text_maximum",
    "PythonDice.C97_text_grow",
    "PythonDice.C97_text_explode",
    "PythonDice.C97_text_highest",
    "PythonDice.C97_text_lowest",
    "PythonDice.C97_text_middle",
    "PythonDice.C97_text_greater",
    "PythonDice.C97_text_smaller",
    "PythonDice.C97_text_put",
    "PythonDice.C97_text_sort"
   ],
   "note": "The texts are given in Verif/Spec/OwnLibrary.lean and C97_text_* prove that they are read as these definitions; C97_expression is about expressions that call them; C97_deep_counterexample: the condition on nested calls is needed."
  },
  {
   "property": "C98",
   "status": "partial",
   "theorems": [
    "PythonDice.C98_words_partial",
    "PythonDice.C98_attributes_partial",
    "PythonDice.C98_backslash_counterexample",
    "PythonDice.C98_type_counterexample",
    "PythonDice.C98_check_needed"
   ],
   "note": "False as stated: C98_backslash_counterexample is a program text that compiles to code which calls print, C98_type_counterexample one in which the name of a function of Python becomes an annotation. Proved for all texts whose literals contain no backslash and no carriage return, with words given as types among the allowed words (C98_words_partial), and without attributes (C98_attributes_partial)."
  },
  {
   "property": "C99",
   "status": "proved",
   "theorems": [
    "PythonDice.C99_language",
    "PythonDice.C99_built",
    "PythonDice.C99_order",
    "PythonDice.C99_tokenizer",
    "PythonDice.C99_new",
    "PythonDice.C99_second_pass"
   ],
   "note": "C99_language relates the model of re to the languages of regular expressions; C99_tokenizer is the refinement of Model/Lexer.lean; C99_new and C99_second_pass are its consequences for do_lex and do_yacc."
  },
  {
   "property": "C100",
   "status": "proved",
   "theorems": [
    "PythonDice.C100_digraph",
    "PythonDice.C100_solution",
    "PythonDice.C100_least",
    "PythonDice.C100_tables",
    "PythonDice.C100_unshared"
   ],
   "note": "C100_digraph is the algorithm for all relations; C100_solution and C100_least say that it is the least solution; C100_tables is about the grammar. C100_unshared: lists are values in the model; the second pass appends to lists of the first, which would matter only if READS had cycles."
  },
  {
   "property": "C101",
   "status": "proved",
   "theorems": [
    "PythonDice.C101_parse",
    "PythonDice.C101_ends",
    "PythonDice.C101_language",
    "PythonDice.C101_numbers"
   ],
   "note": "C101_parse is the equivalence, C101_language and C101_ends its consequences, C101_numbers the independence of the numbering. Position attributes, debugging and tracking of PLY are left out."
  },
  {
   "property": "C102",
   "status": "proved",
   "theorems": [
    "PythonDice.C102_reads_back",
    "PythonDice.C102_shortest",
    "PythonDice.C102_injective",
    "PythonDice.C102_header"
   ],
   "note": "repr of floats is part of CPython; the model searches the shortest decimal, and C102_shortest proves that the search finds it. C71 says for dice that are not too large how the text looks and how far the deviation can be off."
  },
  {
   "property": "C103",
   "status": "proved",
   "theorems": [
    "PythonDice.C103_compile",
    "PythonDice.C103_ends",
    "PythonDice.C103_unique"
   ],
   "note": "This joins C99 (lexer), C100 (tables) and C101 (loop); every theorem about compile is with it one about the code on top of PLY."
  },
  {
   "property": "C104",
   "status": "proved",
   "theorems": [
    "PythonDice.C104_call",
    "PythonDice.C104_value",
    "PythonDice.C104_first",
    "PythonDice.C104_next"
   ],
   "note": "Frames are counted from the call on; how many of Python's recursion limit are used up before is not modelled."
  },
  {
   "property": "C105",
   "status": "proved",
   "theorems": [
    "PythonDice.C105_threshold",
    "PythonDice.C105_between",
    "PythonDice.C105_outcome",
    "PythonDice.C105_independent"
   ],
   "note": "random() is taken to return each multiple of 1/2^53 equally often and independently (trusted: the Mersenne Twister)."
  }
 ]
}
