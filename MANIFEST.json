{
 "claims": [
  {
   "property": "C01",
   "status": "proved",
   "theorems": [
    "Bms.C01_uint_arith_mod",
    "Bms.C01_uint_neg_mod",
    "Bms.C01_unary_plus"
   ],
   "note": "All widths 1..127, all operands, mixed Int/Uint operands included."
  },
  {
   "property": "C02",
   "status": "proved",
   "theorems": [
    "Bms.C02_int_arith_exact",
    "Bms.C02_int_neg_exact",
    "Bms.C02_not_infinite_precision"
   ],
   "note": "Exact result or undefined behaviour (signed overflow). C02_not_infinite_precision shows that the documented 'infinite precision' does not hold."
  },
  {
   "property": "C03",
   "status": "proved",
   "theorems": [
    "Bms.C03_division_by_zero",
    "Bms.C03_truncated_division",
    "Bms.C03_division_overflow"
   ],
   "note": "Includes the one overflowing quotient (-2^127)/(-1), which is undefined behaviour."
  },
  {
   "property": "C04",
   "status": "proved",
   "theorems": [
    "Bms.C04_bitwise",
    "Bms.C04_bitwise_not",
    "Bms.C04_int_bitwise_rejected"
   ],
   "note": "Bit-by-bit characterisation; Int operands are rejected."
  },
  {
   "property": "C05",
   "status": "proved",
   "theorems": [
    "Bms.C05_shift",
    "Bms.C05_shift_by_width_is_zero",
    "Bms.C05_shift_undefined_reachable"
   ],
   "note": "Shifts by amounts below 128; C05_shift_undefined_reachable shows that larger amounts are undefined behaviour in the code."
  },
  {
   "property": "C06",
   "status": "proved",
   "theorems": [
    "Bms.C06_comparison",
    "Bms.C06_trichotomy"
   ],
   "note": "All six comparisons agree with the order of the integers; trichotomy."
  },
  {
   "property": "C07",
   "status": "proved",
   "theorems": [
    "Bms.C07_common_type_iff",
    "Bms.C07_common_type_error",
    "Bms.C07_common_type_comm",
    "Bms.C07_common_type_sound"
   ],
   "note": "Table, error table, symmetry, soundness."
  },
  {
   "property": "C08",
   "status": "proved",
   "theorems": [
    "Bms.C08_lossless_conversion",
    "Bms.C08_conversion_keeps_value",
    "Bms.C08_conversion_idempotent",
    "Bms.C08_mixed_operand_range"
   ],
   "note": "Exact characterisation for every well-formed value and type, idempotence, use in binary operators."
  },
  {
   "property": "C09",
   "status": "proved",
   "theorems": [
    "Bms.C09_truncating_conversion",
    "Bms.C09_truncating_agrees"
   ],
   "note": "Reduction modulo 2^w, agreement with the lossless conversion."
  },
  {
   "property": "C10",
   "status": "partial",
   "theorems": [
    "Bms.C10_unary",
    "Bms.C10_binary_rejected",
    "Bms.C10_check_total",
    "Bms.C10_binary_accepted_partial",
    "Bms.C10_bool_equality_throws",
    "Bms.C10_conversion_code_throws",
    "Bms.C10_if"
   ],
   "note": "Holds except for Bool ==/!= and the operator code 'conversion', for which the check accepts and evaluation throws (proved: C10_bool_equality_throws, C10_conversion_code_throws)."
  },
  {
   "property": "C11",
   "status": "proved",
   "theorems": [
    "Bms.C11_conversion_wf",
    "Bms.C11_unary_wf",
    "Bms.C11_binary_wf",
    "Bms.C11_if_wf"
   ],
   "note": "Conversions, unary, binary, if-expression, for all operator codes."
  },
  {
   "property": "C12",
   "status": "partial",
   "theorems": [
    "Bms.C12_conversion",
    "Bms.C12_unary",
    "Bms.C12_binary",
    "Bms.C12_binary_clean_partial",
    "Bms.C12_uint_known_divisor_throws",
    "Bms.C12_if",
    "Bms.C12_builtin"
   ],
   "note": "Soundness of every returned value and error is proved without exception. Folding can throw where concrete evaluation is defined: proved for / % << >> of an unknown Uint by a constant (C12_uint_known_divisor_throws); C12_binary_clean_partial shows these, Bool equality and 'conversion' are the only cases."
  },
  {
   "property": "C13",
   "status": "proved",
   "theorems": [
    "Bms.C13_assert"
   ],
   "note": "Complete characterisation over all argument lists of well-formed values."
  },
  {
   "property": "C14",
   "status": "proved",
   "theorems": [
    "Bms.C14_if_expression",
    "Bms.C14_unchosen_irrelevant",
    "Bms.C14_if_value"
   ],
   "note": "Chosen operand, converted losslessly; the other operand has no influence."
  },
  {
   "property": "C15",
   "status": "partial",
   "theorems": [
    "Bms.C15_uinteger_literal_partial",
    "Bms.C15_binary_overflow",
    "Bms.C15_overflow_undetected",
    "Bms.C15_foreign_digits_accepted",
    "Bms.C15_foreign_characters_rejected",
    "Bms.C15_integer_literal_partial"
   ],
   "note": "Proved for every literal with lower-case digits and value below 2^128 (2^127 for signed). The overflow check detects every binary overflow but misses others (C15_overflow_undetected), and digits of the wrong base are accepted (C15_foreign_digits_accepted)."
  },
  {
   "property": "C16",
   "status": "partial",
   "theorems": [
    "Bms.C16_match_sound",
    "Bms.C16_match_complete",
    "Bms.C16_matched_literal_parses_partial",
    "Bms.C16_upper_case_unparsable"
   ],
   "note": "Matching is sound, maximal and complete. Matched literals parse to their value if written in lower case and below 2^127; C16_upper_case_unparsable shows a matched literal that does not parse."
  },
  {
   "property": "C17",
   "status": "proved",
   "theorems": [
    "Bms.C17_whitespace",
    "Bms.C17_line_comment",
    "Bms.C17_block_comment",
    "Bms.C17_string_literal"
   ],
   "note": "Exact characterisation (iff) of the comment and string matchers, and of the whitespace matcher, for every text."
  },
  {
   "property": "C18",
   "status": "proved",
   "theorems": [
    "Bms.C18_match_identifier",
    "Bms.C18_is_identifier",
    "Bms.C18_is_identifier_iff_matched"
   ],
   "note": "Longest identifier prefix; zero iff none; is_identifier iff identifier."
  },
  {
   "property": "C19",
   "status": "proved",
   "theorems": [
    "Bms.C19_tokens_tile",
    "Bms.C19_tokens_before_error",
    "Bms.C19_tokens_ordered"
   ],
   "note": "Tokens tile the text with white space between them, in order, for successful and failed runs."
  },
  {
   "property": "C20",
   "status": "partial",
   "theorems": [
    "Bms.C20_token_text_partial",
    "Bms.C20_wrong_length",
    "Bms.C20_operand_swallowed",
    "Bms.C20_length_table"
   ],
   "note": "Every token's text is a lexeme of its type, except && and !, whose length table entry is 3 (C20_wrong_length, C20_operand_swallowed). C20_length_table shows these are the only wrong entries."
  },
  {
   "property": "C21",
   "status": "partial",
   "theorems": [
    "Bms.C21_positions_partial",
    "Bms.C21_error_position_partial",
    "Bms.C21_multiline_string"
   ],
   "note": "Exact line and column when no string literal (and no overlong && or ! token) contains a line break or tab; C21_multiline_string is the counterexample."
  },
  {
   "property": "C22",
   "status": "partial",
   "theorems": [
    "Bms.C22_terminates",
    "Bms.C22_error",
    "Bms.C22_error_inside",
    "Bms.C22_error_at_end",
    "Bms.C22_no_exception_partial",
    "Bms.C22_exceptions"
   ],
   "note": "Termination and located errors for every text. C22_no_exception_partial gives the texts for which no exception is thrown; C22_exceptions lists witnesses that throw."
  },
  {
   "property": "C23",
   "status": "proved",
   "theorems": [
    "Bms.C23_kleene",
    "Bms.C23_embedding",
    "Bms.C23_exact_abstraction",
    "Bms.C23_laws"
   ],
   "note": "All three values; operators are the exact Kleene abstraction."
  },
  {
   "property": "C24",
   "status": "proved",
   "theorems": [
    "Bms.C24_strict_partial_order",
    "Bms.C24_binary_operators",
    "Bms.C24_levels"
   ],
   "note": "Strict partial order; complete description for binary operators; levels."
  },
  {
   "property": "C25",
   "status": "proved",
   "theorems": [
    "Bms.C25_stack_of_maps",
    "Bms.C25_null_throws",
    "Bms.C25_assign_find",
    "Bms.C25_push_pop"
   ],
   "note": "Refinement to a stack of maps for every history of operations."
  },
  {
   "property": "C26",
   "status": "partial",
   "theorems": [
    "Bms.C26_program_unchanged",
    "Bms.C26_step",
    "Bms.C26_performs",
    "Bms.C26_reports",
    "Bms.C26_invariant",
    "Bms.C26_invariant_steps",
    "Bms.C26_local",
    "Bms.C26_negative_jump"
   ],
   "note": "Every cycle from every well-formed state has exactly the specified effect, error or abnormal outcome; the effect is unique, local and preserves well-formedness. Exception: a jump to before the program is not reported as an error (C26_negative_jump); the next cycle then throws (C26_step)."
  },
  {
   "property": "C27",
   "status": "proved",
   "theorems": [
    "Bms.C27_balanced",
    "Bms.C27_isolated"
   ],
   "note": "For every number of cycles from a call: balanced return with the caller's frames and address, and independence from the caller's variables."
  },
  {
   "property": "C28",
   "status": "proved",
   "theorems": [
    "Bms.C28_closed"
   ],
   "note": "Every function for which generation succeeds; the absence of placeholders assumes break and continue inside loops, as analysis ensures."
  },
  {
   "property": "C29",
   "status": "proved",
   "theorems": [
    "Bms.C29_all_or_nothing",
    "Bms.C29_position_independent"
   ],
   "note": "Every function and every previous output; also position independence of the code."
  },
  {
   "property": "C30",
   "status": "partial",
   "theorems": [
    "Bms.C30_expressions_partial",
    "Bms.C30_conditional_violation"
   ],
   "note": "Every well-typed expression in every surrounding code, stack and store, including calls; branches of conditional expressions must already have the type of the expression (C30_conditional_violation shows that the code does not convert them)."
  },
  {
   "property": "C31",
   "status": "partial",
   "theorems": [
    "Bms.C31_statements_partial",
    "Bms.C31_calls_partial",
    "Bms.C31_calls_stale_partial",
    "Bms.C31_end_violation",
    "Bms.C31_stale_violation",
    "Bms.C31_fallthrough_violation"
   ],
   "note": "Statements: every well-typed statement. Calls: the outcome is that of the reference semantics if and only if, including divergence. Assumes stored values have the type of the variable already (C33_violation), functions end with return (C31_end_violation, C31_fallthrough_violation), and declarations without initializer are executed once (C31_stale_violation; C31_calls_stale_partial without this assumption)."
  },
  {
   "property": "C32",
   "status": "proved",
   "theorems": [
    "Bms.C32_short_circuit",
    "Bms.C32_operands_partial"
   ],
   "note": "C32_short_circuit for every pair of expressions without typing assumptions; C32_operands_partial relates it to direct evaluation under the assumptions of C30."
  },
  {
   "property": "C33",
   "status": "partial",
   "theorems": [
    "Bms.C33_variables_partial",
    "Bms.C33_violation"
   ],
   "note": "Violated for initializers and assigned values of another type (C33_violation). After every statement whose stored values have the declared type, all variables have their declared type."
  },
  {
   "property": "C34",
   "status": "proved",
   "theorems": [
    "Bms.C34_define",
    "Bms.C34_visible",
    "Bms.C34_history",
    "Bms.C34_shadowing_violation"
   ],
   "note": "All histories of scopes and definitions, and every name. Shadowing disabled, as in the statement and in all uses; with shadowing enabled the outer declaration is found (C34_shadowing_violation)."
  },
  {
   "property": "C35",
   "status": "partial",
   "theorems": [
    "Bms.C35_verdict",
    "Bms.C35_bound",
    "Bms.C35_error",
    "Bms.C35_generic",
    "Bms.C35_width_violation"
   ],
   "note": "All programs: the first fault in source order decides the error, and success binds every name to a visible declaration; violated for unknown functions called in widths of parameters, which throw (C35_width_violation)."
  },
  {
   "property": "C36",
   "status": "partial",
   "theorems": [
    "Bms.C36_accepts_partial",
    "Bms.C36_rejects_partial",
    "Bms.C36_assignment_unique",
    "Bms.C36_names_differ",
    "Bms.C36_inline_violation",
    "Bms.C36_association_violation",
    "Bms.C36_sample"
   ],
   "note": "Missing: `@inline`, which is unknown to the program under its documented name (C36_inline_violation), and the parameter that a stored value belongs to, which is forgotten (C36_association_violation). The quantifier is over every list of arguments whose values are literals of the lexical grammar."
  },
  {
   "property": "C37",
   "status": "proved",
   "theorems": [
    "Bms.C37_no_markup",
    "Bms.C37_text",
    "Bms.C37_read_back",
    "Bms.C37_ampersand"
   ],
   "note": "All styles, all texts; the exception for texts that contain the entities themselves is real (C37_ampersand)."
  },
  {
   "property": "C38",
   "status": "partial",
   "theorems": [
    "Bms.C38_nested",
    "Bms.C38_depth",
    "Bms.C38_excess",
    "Bms.C38_is_done_partial",
    "Bms.C38_is_done_attributes",
    "Bms.C38_is_done_initial",
    "Bms.C38_accepts_partial",
    "Bms.C38_block_attributes",
    "Bms.C38_document"
   ],
   "note": "Depth, nesting and excess closing tags for all call sequences; is_done answers true while attributes are written and before anything is written (C38_is_done_attributes, C38_is_done_initial); block-like tags with attributes throw (C38_block_attributes)."
  },
  {
   "property": "C39",
   "status": "proved",
   "theorems": [
    "Bms.C39_spans",
    "Bms.C39_rollback",
    "Bms.C39_commit",
    "Bms.C39_span_text",
    "Bms.C39_resize_violation"
   ],
   "note": "All nestings of appends and attempts, including attempts left by exceptions; resize with lengths of other origin breaks the invariant (C39_resize_violation)."
  },
  {
   "property": "C40",
   "status": "partial",
   "theorems": [
    "Bms.C40_block_partial",
    "Bms.C40_error",
    "Bms.C40_located",
    "Bms.C40_empty_violation",
    "Bms.C40_sample"
   ],
   "note": "Raw blocks with some text in them are matched up to the balancing brace, and an error is reported exactly if there is none. Violated by the empty block: {} throws whatever follows (C40_empty_violation)."
  },
  {
   "property": "C41",
   "status": "partial",
   "theorems": [
    "Bms.C41_diverges_violation",
    "Bms.C41_diverges_sample",
    "Bms.C41_throws_violation",
    "Bms.C41_ub_violation",
    "Bms.C41_partial",
    "Bms.C41_steps",
    "Bms.C41_sample"
   ],
   "note": "Documents in which comments follow white space, which do not end where a comment starts, without empty braces and without directive names after ul in the alphabet: the parser ends within 4 n + 11 steps with a document or a located error. Violated by words followed by a comment in a span (never ends), by empty braces, by // at the end and by comments in titles (exceptions), and by directive names such as var (read past the end of the table)."
  },
  {
   "property": "C42",
   "status": "partial",
   "theorems": [
    "Bms.C42_terminates",
    "Bms.C42_sound_partial",
    "Bms.C42_violated_comma",
    "Bms.C42_violated_string",
    "Bms.C42_violated_chain"
   ],
   "note": "For all token sequences: parsing ends, and what is accepted is a sentence of the grammar with its tree, if the grammar is extended by calls without commas and strings as expressions. For grammar.ebnf itself it is violated (C42_violated_comma, C42_violated_string, C42_violated_chain)."
  },
  {
   "property": "C43",
   "status": "proved",
   "theorems": [
    "Bms.C43_comments"
   ],
   "note": "Every pair of token sequences that differ in comments only; result, error rule, expected tokens and error token agree."
  },
  {
   "property": "C44",
   "status": "partial",
   "theorems": [
    "Bms.C44_binary_operators_partial",
    "Bms.C44_greater_or_equal",
    "Bms.C44_unary_operators",
    "Bms.C44_round_trip",
    "Bms.C44_code_names"
   ],
   "note": "Holds for every operator token except >=, which is accepted and then throws (C44_greater_or_equal)."
  },
  {
   "property": "C45",
   "status": "proved",
   "theorems": [
    "Bms.C45_instances",
    "Bms.C45_copy",
    "Bms.C45_global_violation",
    "Bms.C45_null_violation"
   ],
   "note": "All histories of requests with deduced widths, also the contents of instances. Which functions cannot be instantiated at all is in C45_global_violation and C45_null_violation."
  },
  {
   "property": "C46",
   "status": "proved",
   "theorems": [
    "Bms.C46_longest_match"
   ],
   "note": "Every token of a run and every longer text."
  },
  {
   "property": "C47",
   "status": "partial",
   "theorems": [
    "Bms.C47_comparison_partial",
    "Bms.C47_stale_comparison"
   ],
   "note": "Holds if the asserted value was computed by the instruction before; otherwise the comparison of an earlier assertion is reported (C47_stale_comparison)."
  },
  {
   "property": "C48",
   "status": "partial",
   "theorems": [
    "Bms.C48_calls_partial"
   ],
   "note": "Calls of compiled functions, under the assumptions of C31."
  },
  {
   "property": "C49",
   "status": "partial",
   "theorems": [
    "Bms.C49_read_back_partial",
    "Bms.C49_read_back_empty_partial",
    "Bms.C49_quote",
    "Bms.C49_tab",
    "Bms.C49_slash"
   ],
   "note": "Values without double quote, tab and line end; in front of /> the last value must be empty or quoted. Violated otherwise (C49_quote, C49_tab, C49_slash)."
  },
  {
   "property": "C50",
   "status": "partial",
   "theorems": [
    "Bms.C50_preamble",
    "Bms.C50_done_without_preamble"
   ],
   "note": "At most once and first is proved for all call sequences; that a finished document has it is violated (C50_done_without_preamble)."
  },
  {
   "property": "C51",
   "status": "partial",
   "theorems": [
    "Bms.C51_complete_partial",
    "Bms.C51_unambiguous_partial",
    "Bms.C51_text_partial",
    "Bms.C51_violated_argument",
    "Bms.C51_violated_parentheses",
    "Bms.C51_violated_else",
    "Bms.C51_violated_type"
   ],
   "note": "All programs without obstructed comparisons, a condition on the tokens that is defined in Spec/Grammar.lean. Violated otherwise (C51_violated_argument, C51_violated_parentheses, C51_violated_else, C51_violated_type)."
  },
  {
   "property": "C52",
   "status": "proved",
   "theorems": [
    "Bms.C52_tree"
   ],
   "note": "All nodes of every accepted program, including that abandoned alternatives leave no nodes behind."
  },
  {
   "property": "C53",
   "status": "partial",
   "theorems": [
    "Bms.C53_no_throw_partial",
    "Bms.C53_text_partial",
    "Bms.C53_violated_annotation"
   ],
   "note": "All token sequences without @; violated by annotations with wrong arguments (C53_violated_annotation)."
  },
  {
   "property": "C54",
   "status": "partial",
   "theorems": [
    "Bms.C54_well_typed_partial",
    "Bms.C54_sample",
    "Bms.C54_recursion_violation",
    "Bms.C54_instance_violation",
    "Bms.C54_text_partial"
   ],
   "note": "All programs without self-references in functions with a requires-clause and without calls in types of signatures, all functions that are not generic. Instances of generic functions that are declared before their use are accepted without analysis (C54_instance_violation); a function with a requires-clause counts as Bool in its own body (C54_recursion_violation)."
  },
  {
   "property": "C55",
   "status": "proved",
   "theorems": [
    "Bms.C55_shape",
    "Bms.C55_sample"
   ],
   "note": "All programs with distinct keys of functions; name lookup and analysis of types together."
  },
  {
   "property": "C56",
   "status": "partial",
   "theorems": [
    "Bms.C56_machine_partial",
    "Bms.C56_sample"
   ],
   "note": "Under the conditions of C54 on the program and those of C31 (known code generation faults) on the functions that are called in constant expressions."
  },
  {
   "property": "C57",
   "status": "partial",
   "theorems": [
    "Bms.C57_unknown_violation",
    "Bms.C57_sample_value",
    "Bms.C57_sample",
    "Bms.C57_values_partial"
   ],
   "note": "Proved for all values that are known: constants, widths, static assertions and requires-clauses agree with the source semantics, under the conditions of C54 on the program and of C31 on the functions that constant expressions call. Concrete violation: a typed constant whose initializer cannot be computed is accepted and has no value (C57_unknown_violation)."
  },
  {
   "property": "C58",
   "status": "partial",
   "theorems": [
    "Bms.C58_signature_violation",
    "Bms.C58_constant_violation",
    "Bms.C58_ends_partial",
    "Bms.C58_bound",
    "Bms.C58_sample",
    "Bms.C58_calls_partial",
    "Bms.C58_text_partial",
    "Bms.C58_calls_sample",
    "Bms.C58_decided_partial",
    "Bms.C58_decided_sample",
    "Bms.C58_fallthrough_violation"
   ],
   "note": "Proved for all programs without calls in constant expressions (initializers of constants, static assertions, requires-clauses, widths), including recursive and generic functions: analysis ends, and the result does not depend on the bound of the model (C58_ends_partial, C58_bound). With calls in constant expressions, proved if all functions that are called there, directly or not, have no loops, return on every path and are not generic (C58_calls_partial; C58_text_partial and C58_decided_partial for texts); other functions may do what they like. Violated otherwise: analysis does not end for functions that are called in their own signature, for constants that are computed by an infinite loop, and for constants that call a function without return, whose code runs on into the next function (C58_signature_violation, C58_constant_violation, C58_fallthrough_violation). Missing: generic functions and loops that end in constant expressions."
  },
  {
   "property": "C59",
   "status": "partial",
   "theorems": [
    "Bms.C59_calm_partial",
    "Bms.C59_sample",
    "Bms.C59_errors",
    "Bms.C59_ub_violation",
    "Bms.C59_throws_violation",
    "Bms.C59_widths"
   ],
   "note": "Proved for calm programs (Spec/Calm): no generic functions, constant expressions without calls that can be computed or have an error that has to be reported, no functions that call themselves without a requires-clause. Violated in general: see C59_ub_violation and C59_throws_violation; programs whose analysis throws or has undefined behavior."
  },
  {
   "property": "C60",
   "status": "partial",
   "theorems": [
    "Bms.C60_tree_partial",
    "Bms.C60_violation",
    "Bms.C60_text_partial",
    "Bms.C60_analyzed",
    "Bms.C60_sample",
    "Bms.C60_annotation_sample",
    "Bms.C60_violation_sample",
    "Bms.C60_comparisons"
   ],
   "note": "All programs without the operator >=. Violated by every program with it: making the tree throws (C60_violation, an equivalence). C60_analyzed: every text that reaches analysis, with or without annotations, reaches it as a tree of its syntax, and does not contain >=. C54_text_partial puts tokenization, parsing, tree and analysis together."
  },
  {
   "property": "C61",
   "status": "proved",
   "theorems": [
    "Bms.C61_sound",
    "Bms.C61_located",
    "Bms.C61_sample",
    "Bms.C61_paragraph_violation",
    "Bms.C61_number_violation",
    "Bms.C61_space_violation",
    "Bms.C61_nesting",
    "Bms.C61_names",
    "Bms.C61_spans"
   ],
   "note": "For all texts and all accepted documents. C61_spans: nodes lie in each other. Apart from that the source span of paragraph nodes is left open, because it is wrong (C61_paragraph_violation), and so are numbers that do not fit 63 bits (C61_number_violation)."
  },
  {
   "property": "C62",
   "status": "partial",
   "theorems": [
    "Bms.C62_accepts_partial",
    "Bms.C62_unique_partial",
    "Bms.C62_rejects_partial",
    "Bms.C62_sample",
    "Bms.C62_comment_violation",
    "Bms.C62_number_violation",
    "Bms.C62_number_sample",
    "Bms.C62_upper_case_violation",
    "Bms.C62_allowed"
   ],
   "note": "Missing: comments that do not follow a space (C62_comment_violation, where the parser does not end), upper case digits (C62_upper_case_violation) and numbers of more than 63 bits (C62_number_violation: for all of them up to 127 bits the document has another number). Errors are characterized with the conditions of C41_partial."
  },
  {
   "property": "C63",
   "status": "partial",
   "theorems": [
    "Bms.C63_program_partial",
    "Bms.C63_sample",
    "Bms.C63_negative_violation",
    "Bms.C63_keyword_violation"
   ],
   "note": "Missing: programs with `@inline` (C36_inline_violation). Some annotations cannot be written at all, because the parser throws: negative numbers (C63_negative_violation) and the parameter `function` by name (C63_keyword_violation)."
  },
  {
   "property": "C64",
   "status": "partial",
   "theorems": [
    "Bms.C64_tokens_partial",
    "Bms.C64_lexemes_partial",
    "Bms.C64_unique_partial",
    "Bms.C64_violated",
    "Bms.C64_sample"
   ],
   "note": "Missing: `&&` that is not followed by a space and `!` that is not followed by two, because these tokens take three characters, and a block comment at the end of the text, where the tokenizer throws (C64_violated)."
  },
  {
   "property": "C65",
   "status": "partial",
   "theorems": [
    "Bms.C65_written_partial",
    "Bms.C65_again_partial",
    "Bms.C65_injective_partial",
    "Bms.C65_requires_violation",
    "Bms.C65_else_violation",
    "Bms.C65_call_violation",
    "Bms.C65_not_violation",
    "Bms.C65_conversion_violation",
    "Bms.C65_sample_text",
    "Bms.C65_sample"
   ],
   "note": "Missing: programs with `else` and a block, call statements, `requires` clauses, `!`, and conversions of operations with two operands, for all of which it does not hold (C65_else_violation, C65_call_violation, C65_requires_violation, C65_not_violation, C65_conversion_violation). For the round trip through the parser also comparisons that the parser misreads and `>=`, as in C51 and C60. Annotations and string literals are not modelled."
  },
  {
   "property": "C66",
   "status": "partial",
   "theorems": [
    "Bms.C66_page_partial",
    "Bms.C66_fault_partial",
    "Bms.C66_unclosed",
    "Bms.C66_iff_partial",
    "Bms.C66_unsupported_violation",
    "Bms.C66_sample",
    "Bms.C66_sample_page",
    "Bms.C66_superscript_violation",
    "Bms.C66_comment_violation",
    "Bms.C66_throws_violation",
    "Bms.C66_null_violation",
    "Bms.C66_quote_violation",
    "Bms.C66_names",
    "Bms.C66_names_sample"
   ],
   "note": "Missing: it is false for `\\br`, `\\hr`, `\\c{..}`, `\\note`, `\\item`, comments in paragraphs, lists with arguments, directives with arguments and without a block (C66_unsupported_violation, C66_throws_violation, C66_comment_violation, C66_unclosed), for `\\instruction` without a block (C66_null_violation), and for `\\sup` (C66_superscript_violation); these are faults of the specification or excluded by it. Documents with a double quote in the name of an instruction (C66_quote_violation) or carriage returns in code (C67_return_violation) are excluded. Stylesheets are plain attribute values, as in C49. C66_names: which names of languages and architectures are accepted, and what they mean."
  },
  {
   "property": "C67",
   "status": "partial",
   "theorems": [
    "Bms.C67_text_partial",
    "Bms.C67_plain",
    "Bms.C67_category",
    "Bms.C67_sample",
    "Bms.C67_comment_violation",
    "Bms.C67_space_violation",
    "Bms.C67_return_violation",
    "Bms.C67_return_throws"
   ],
   "note": "Missing: programs with tabs, carriage returns, spaces at the ends of lines, or tokens that span lines, for which it is false (C67_comment_violation, C67_space_violation, C67_return_violation, C67_return_throws)."
  },
  {
   "property": "C68",
   "status": "partial",
   "theorems": [
    "Bms.C68_to_string_partial",
    "Bms.C68_small",
    "Bms.C68_negative",
    "Bms.C68_nonnegative",
    "Bms.C68_violation",
    "Bms.C68_same_text_violation",
    "Bms.C68_sample"
   ],
   "note": "Missing: integers with absolute value 2^64 or more whose lower 19-digit parts begin with zeros, for which it is false, as the parts are not padded (C68_violation, C68_same_text_violation); C68_to_string_partial says exactly which integers are written correctly."
  },
  {
   "property": "C69",
   "status": "partial",
   "theorems": [
    "Bms.C69_expression_partial",
    "Bms.C69_right_operand_violation",
    "Bms.C69_right_operand_meaning",
    "Bms.C69_sign_violation",
    "Bms.C69_negative_violation",
    "Bms.C69_conditional_violation",
    "Bms.C69_constant_violation",
    "Bms.C69_name_violation",
    "Bms.C69_sample"
   ],
   "note": "Missing: right operands that are operations on the same level without the option for parentheses everywhere, repeated signs and signs before negative constants, conditional expressions, constants with c_23, and names that are reserved in C, for which it is false (C69_right_operand_violation, C69_right_operand_meaning, C69_sign_violation, C69_negative_violation, C69_conditional_violation, C69_constant_violation, C69_name_violation). The grammar of C is Spec/CLang; that operations on the types of C compute what they compute in BMS is not part of the claim."
  },
  {
   "property": "C70",
   "status": "partial",
   "theorems": [
    "Bms.C70_program_partial",
    "Bms.C70_constants",
    "Bms.C70_else_violation",
    "Bms.C70_call_violation",
    "Bms.C70_parameter_violation",
    "Bms.C70_functions",
    "Bms.C70_generic_violation",
    "Bms.C70_sample"
   ],
   "note": "Missing: functions with parameters, else with a block, calls as statements and generic functions, for which it is false (C70_parameter_violation, C70_else_violation, C70_call_violation, C70_generic_violation), and the expressions for which C69 is false."
  },
  {
   "property": "C71",
   "status": "partial",
   "theorems": [
    "Bms.C71_error",
    "Bms.C71_types",
    "Bms.C71_unknown_violation"
   ],
   "note": "Missing: programs with constants that analysis accepts without value, for which the generator throws (C71_unknown_violation, C57_unknown_violation). C71_types assumes that values and types have been found by analysis (Ready); C82_ready_partial shows this for accepted programs."
  },
  {
   "property": "C72",
   "status": "partial",
   "theorems": [
    "Bms.C72_call_partial",
    "Bms.C72_text_partial",
    "Bms.C72_narrow_violation",
    "Bms.C72_literal_violation",
    "Bms.C72_constant_violation",
    "Bms.C72_shift_violation",
    "Bms.C72_int_violation",
    "Bms.C72_sample",
    "Bms.C72_text_sample",
    "Bms.C72_wrapping_violation"
   ],
   "note": "Missing: programs outside of SameProgram: operations on Uint of less than 32 bits, on Int where the result does not fit into int, constants of type Uint without an operand of this type, literals of 2^31 and more, and shifts by the width or more, for all of which it is false (C72_narrow_violation, C72_int_violation, C72_constant_violation, C72_literal_violation, C72_shift_violation). C72_text_partial is in addition limited as C70, and covers programs written without the option c_23. Semantics of C: Spec/CSem, for 32-bit int and 64-bit long."
  },
  {
   "property": "C73",
   "status": "partial",
   "theorems": [
    "Bms.C73_report_partial",
    "Bms.C73_numbers_partial",
    "Bms.C73_throws",
    "Bms.C73_colours",
    "Bms.C73_sample",
    "Bms.C73_unterminated_string"
   ],
   "note": "Missing: errors for which it is false: strings without an end and prefixes without digits throw (C73_throws, C73_unterminated_string); escape sequences are also there without colours (C73_colours). Line numbers are proved under the condition of C20 that no line feed is inside of a token (C73_numbers_partial)."
  },
  {
   "property": "C74",
   "status": "partial",
   "theorems": [
    "Bms.C74_report_partial",
    "Bms.C74_numbers_partial",
    "Bms.C74_end",
    "Bms.C74_missing_semicolon",
    "Bms.C74_expected_anyway",
    "Bms.C74_sample"
   ],
   "note": "Missing: errors at the end of the tokens, for which it is false (C74_end, C74_missing_semicolon), and that the token that is blamed is not among those that are expected, which is false (C74_expected_anyway). Line numbers are proved under the condition of C20 (C74_numbers_partial)."
  },
  {
   "property": "C75",
   "status": "partial",
   "theorems": [
    "Bms.C75_report_partial",
    "Bms.C75_throws",
    "Bms.C75_newline",
    "Bms.C75_samples",
    "Bms.C75_sample_reports"
   ],
   "note": "Missing: errors at the end of a document, which throw (C75_throws), and at line feeds, where the wrong line is quoted (C75_newline)."
  },
  {
   "property": "C76",
   "status": "partial",
   "theorems": [
    "Bms.C76_place",
    "Bms.C76_report_partial",
    "Bms.C76_samples",
    "Bms.C76_code"
   ],
   "note": "Missing: errors of code that begins with a line feed, where the wrong line is quoted (C76_code). Misuse of the writer has no place."
  },
  {
   "property": "C77",
   "status": "proved",
   "theorems": [
    "Bms.C77_text",
    "Bms.C77_generated",
    "Bms.C77_overlap",
    "Bms.C77_sample",
    "Bms.C77_page",
    "Bms.C77_file"
   ],
   "note": "C77_text assumes ordered spans, which C39 shows for every editing operation (C77_generated); colours are proved for texts without escape characters."
  },
  {
   "property": "C78",
   "status": "partial",
   "theorems": [
    "Bms.C78_places_partial",
    "Bms.C78_text",
    "Bms.C78_lists"
   ],
   "note": "Nodes for lists of parameters and annotations are at their last element instead of the first one (C78_lists); the table of IntroducedBy states this."
  },
  {
   "property": "C79",
   "status": "partial",
   "theorems": [
    "Bms.C79_document",
    "Bms.C79_document_arguments_sample",
    "Bms.C79_tokens",
    "Bms.C79_tokens_sample",
    "Bms.C79_tree_partial",
    "Bms.C79_arguments",
    "Bms.C79_tree_sample",
    "Bms.C79_arguments_sample",
    "Bms.C79_cut",
    "Bms.C79_cut_sample",
    "Bms.C79_colours",
    "Bms.C79_document_sample"
   ],
   "note": "C79_tokens, C79_cut and C79_document: all tokens and all nodes of documents are shown. Trees of programs are shown if annotations have at most one argument, and otherwise behaviour is undefined (C79_arguments, an equivalence). Dumps of documents contain escape sequences without colours (C79_colours)."
  },
  {
   "property": "C80",
   "status": "partial",
   "theorems": [
    "Bms.C80_not_rejected_partial",
    "Bms.C80_accepted_partial",
    "Bms.C80_text_partial",
    "Bms.C80_sample",
    "Bms.C80_order"
   ],
   "note": "Proved for programs without generic functions, without calls in constant expressions, and without functions that call themselves (these count as Bool or have no value in their own body: C54_recursion_violation). The rules are in Spec/WellTyped. C80_order: a call before the constants in the signature of the called function are declared is rejected, although calls before the declaration of functions are allowed."
  },
  {
   "property": "C81",
   "status": "partial",
   "theorems": [
    "Bms.C81_report_partial",
    "Bms.C81_parameter_names",
    "Bms.C81_values",
    "Bms.C81_width",
    "Bms.C81_return",
    "Bms.C81_return_only",
    "Bms.C81_execution",
    "Bms.C81_hidden",
    "Bms.C81_text_partial",
    "Bms.C81_return_program",
    "Bms.C81_execution_program",
    "Bms.C81_sample",
    "Bms.C81_deduction",
    "Bms.C81_argument_value"
   ],
   "note": "Proved for all places that make errors but two (Reportable): for return statements whose expression has a wrong type, an assertion fails and nothing is reported (C81_return, C81_return_program); errors of execution in constant calls lead to reading a value that was never written (C81_execution, C81_execution_program). Errors of operators are reported without their reason (C81_hidden), wrong values of arguments without the allowed values (C81_argument_value), and the note about a width that cannot be deduced quotes the wrong expression (C81_deduction). Which place makes the error of a program is given by FailsAt (code, node and kind of node), not by the model of analyze itself, which has no causes; C87_report_partial shows that there is one for every rejected text."
  },
  {
   "property": "C82",
   "status": "partial",
   "theorems": [
    "Bms.C82_ready_partial",
    "Bms.C82_generates_partial",
    "Bms.C82_safe_partial",
    "Bms.C82_bms",
    "Bms.C82_text_partial",
    "Bms.C82_language_violation",
    "Bms.C82_hypotheses",
    "Bms.C82_sample",
    "Bms.C82_unknown_violation",
    "Bms.C82_width_sample"
   ],
   "note": "C82_ready_partial: analysis leaves everything that the generators of C and C++ code read, if all constants have values; C82_generates_partial, C82_text_partial: so code is generated iff the types have names in the language, and otherwise the error is the width of an integer. C82_safe_partial: never undefined behaviour, and exceptions only with constants without values. C82_bms: BMS code is the same as before analysis, without restrictions. Violated: C82_unknown_violation (a constant with a value that is not known is accepted, then the generator throws), C82_language_violation (rust, java, kotlin, javascript and typescript can be named but only throw). Missing: calls in signatures, functions with requires-clauses that call themselves."
  },
  {
   "property": "C83",
   "status": "partial",
   "theorems": [
    "Bms.C83_help",
    "Bms.C83_unknown",
    "Bms.C83_tokens",
    "Bms.C83_tree_partial",
    "Bms.C83_verify",
    "Bms.C83_generate",
    "Bms.C83_sound",
    "Bms.C83_accepted_partial",
    "Bms.C83_document_tree",
    "Bms.C83_suffix",
    "Bms.C83_html",
    "Bms.C83_html_violation",
    "Bms.C83_status",
    "Bms.C83_file",
    "Bms.C83_program_errors_partial",
    "Bms.C83_document_errors_partial",
    "Bms.C83_colour_violation",
    "Bms.C83_sample_accepted",
    "Bms.C83_sample_errors",
    "Bms.C83_sample_documents"
   ],
   "note": "C83_help, C83_unknown: help and unknown commands. C83_tokens, C83_verify, C83_generate, C83_html: status 0 iff the command can be carried out, and then its result is shown or written; C83_tree_partial and C83_document_tree for dump_ast of programs and documents; C83_suffix for files of other kinds. C83_sound: what is generated is also accepted by verify; C83_accepted_partial: for what verify accepts, code is generated or its widths have no types. C83_status: the status is 0 or 1, and pages are only written with status 0. C83_file, C83_program_errors_partial, C83_document_errors_partial: what is reported with status 1. Violated: C83_html_violation (html of a BMS file does nothing and ends with status 0; a conversion that fails leaves the output file empty), C83_colour_violation (messages about names of files leave the terminal red). Missing: what C73 to C76, C81 and C82 leave open."
  },
  {
   "property": "C84",
   "status": "partial",
   "theorems": [
    "Bms.C84_variant",
    "Bms.C84_no_leak",
    "Bms.C84_access",
    "Bms.C84_equal",
    "Bms.C84_result_partial",
    "Bms.C84_violation",
    "Bms.C84_void",
    "Bms.C84_sample",
    "Bms.C84_result_sample"
   ],
   "note": "C84_variant, C84_no_leak, C84_access, C84_equal: variants, for all sequences of operations. C84_void: Result<void, Error>. C84_result_partial: Result<T, Error> without assignment by a move; C84_violation: every such assignment is undefined behaviour, because it returns nothing. Assignments of results that throw, which end the program, are excluded."
  },
  {
   "property": "C85",
   "status": "partial",
   "theorems": [
    "Bms.C85_blame_partial",
    "Bms.C85_clean_partial",
    "Bms.C85_text_partial",
    "Bms.C85_fine",
    "Bms.C85_clean_sample",
    "Bms.C85_sample",
    "Bms.C85_violation"
   ],
   "note": "C85_blame_partial: an error of analysis is one of name lookup (C35) or a broken rule, for every program without calls in signatures; C85_text_partial: for texts; C85_clean_partial: a program that breaks no rule is not rejected. C85_fine: a program that breaks none. Violated: C85_violation (a function with a requires-clause that calls itself is rejected for a wrong type although the types fit; the rules count the call as Bool there). Missing: the rules leave open the types of calls in constant expressions, the values of widths that are no literals, which constant expressions fail and which value is false, and when a function that calls others cannot be run yet."
  },
  {
   "property": "C86",
   "status": "partial",
   "theorems": [
    "Bms.C86_meaning",
    "Bms.C86_errors",
    "Bms.C86_text_partial",
    "Bms.C86_sample",
    "Bms.C86_text_sample",
    "Bms.C86_violated"
   ],
   "note": "C86_meaning: texts whose tokens have the same lexemes are compiled to the same result; C86_errors: with the same syntax error at the same token; C86_text_partial: for texts that are written with the same tokens. Missing: `&&` and `!` that are not followed by enough spaces, because these tokens take three characters, and a block comment at the end of the text (C86_violated, C64_violated)."
  },
  {
   "property": "C87",
   "status": "partial",
   "theorems": [
    "Bms.C87_report_partial",
    "Bms.C87_terminal_partial",
    "Bms.C87_sample",
    "Bms.C87_world"
   ],
   "note": "C87_report_partial: for every rejected text there is a token that introduces a node, the program is wrong there as the code of the error says (Wrong: C35 for names, C85 for rules), one of the places in the code that make errors makes such an error, and whichever does, the report begins with the message of this code, the position of the token and its line; C87_terminal_partial: the same for what verify and generate show. C87_world and C87_sample: the hypotheses can be met. Missing: results with a wrong type, for which nothing is reported (part of the theorems, and C81_return), errors of execution (C81_execution), widths, which have a message of their own (C81_width), calls of functions that are not analyzed yet, where the model names the function instead of the call, signatures with calls, and what C85 leaves open. Which place makes an error is not part of the model of analysis (MakesErrors)."
  },
  {
   "property": "C88",
   "status": "partial",
   "theorems": [
    "Bms.C88_reset_partial",
    "Bms.C88_clear_partial",
    "Bms.C88_reset_same",
    "Bms.C88_violation",
    "Bms.C88_sample"
   ],
   "note": "C88_reset_partial, C88_clear_partial: all answers are the same, for all sequences of calls before and after, except that a failed assertion may name a comparison where the new machine names none. C88_reset_same: exactly the same for programs without assertions. C88_sample: a case. Violated: C88_violation (a comparison from before the reset is named with a later failed assertion)."
  },
  {
   "property": "C89",
   "status": "partial",
   "theorems": [
    "Bms.C89_names",
    "Bms.C89_accepted_partial",
    "Bms.C89_not_rejected_partial",
    "Bms.C89_last_partial",
    "Bms.C89_sample",
    "Bms.C89_violation"
   ],
   "note": "C89_names: name lookup, for all programs and all orders. C89_accepted_partial: calm programs (Spec/Calm) that follow the rules (Spec/WellTyped) are accepted, also if functions are moved towards the end, past constants and other functions; C89_last_partial: all functions behind everything else, in any order; C89_not_rejected_partial: without being calm. The addresses of nodes are kept. Violated otherwise: C89_violation (with a generic function, one order is accepted and the other one rejected; a function in front of a constant is rejected)."
  },
  {
   "property": "C90",
   "status": "partial",
   "theorems": [
    "Bms.C90_untouched",
    "Bms.C90_names",
    "Bms.C90_accepted_partial",
    "Bms.C90_again_partial",
    "Bms.C90_moved_partial",
    "Bms.C90_sample",
    "Bms.C90_moved_sample"
   ],
   "note": "C90_names: name lookup, for all programs: it succeeds for both or fails for both with the same error, and the results are calm, or follow the rules, both or not at all. C90_accepted_partial: a text with the same program as a calm program (Spec/Calm) that follows the rules (Spec/WellTyped) is accepted. C90_again_partial: so is the text that the generator of BMS code writes, under the conditions of C65_again_partial. C90_moved_partial: texts in which functions were moved towards the end. Programs that are not calm, in particular with generic functions, and programs that are rejected: see C91. Missing: functions that are moved in programs that are not calm."
  },
  {
   "property": "C91",
   "status": "partial",
   "theorems": [
    "Bms.C91_verdict",
    "Bms.C91_nodes",
    "Bms.C91_texts",
    "Bms.C91_again_partial",
    "Bms.C91_sample",
    "Bms.C91_again_sample"
   ],
   "note": "C91_verdict: for any two programs that are written in the same way, with any addresses of nodes, analysis has the same result. C91_texts: for any two texts that are made into such programs. Both without restrictions. C91_again_partial: for generated BMS code, with the restrictions of C65_again_partial (printable programs, no obstructed lookahead, no `>=`, less than 2^64 tokens), hence the status."
  },
  {
   "property": "C92",
   "status": "partial",
   "theorems": [
    "Bms.C92_programs",
    "Bms.C92_texts",
    "Bms.C92_command",
    "Bms.C92_verify",
    "Bms.C92_between_partial",
    "Bms.C92_sample",
    "Bms.C92_verify_sample",
    "Bms.C92_between_sample"
   ],
   "note": "C92_programs: for any two accepted programs that are written in the same way, with any addresses of nodes, all generators give the same result. C92_texts: for any two texts. C92_command: for the generate command and two files that verify accepts. C92_verify: verify accepts both files or none, if annotations are allowed. These are without restrictions. C92_between_partial: generated BMS code is accepted, gives the same code in all languages, and does not change if it is generated again; with the restrictions of C65_again_partial, hence the status."
  },
  {
   "property": "C93",
   "status": "partial",
   "theorems": [
    "Bms.C93_dump_partial",
    "Bms.C93_lines",
    "Bms.C93_type_violation",
    "Bms.C93_number_violation",
    "Bms.C93_sample",
    "Bms.C93_generated_partial",
    "Bms.C93_generated_sample"
   ],
   "note": "C93_dump_partial: programs with the same dump have the same instructions at the same places, with the same names of variables, if numbers have at most 64 bits; types of numbers that are pushed are left open. C93_lines: one line per instruction, with the same restriction. C93_generated_partial: the same for the code that is generated for any two functions in whose trees known values have at most 64 bits. The rest is violated: C93_type_violation (the line does not show the type of a number) and C93_number_violation (10^20 is shown as 100)."
  }
 ]
}
