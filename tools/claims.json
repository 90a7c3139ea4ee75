{
 "C01": [
  "proved",
  "All widths 1..127, all operands, mixed Int/Uint operands included."
 ],
 "C02": [
  "proved",
  "Exact result or undefined behaviour (signed overflow). C02_not_infinite_precision shows that the documented 'infinite precision' does not hold."
 ],
 "C03": [
  "proved",
  "Includes the one overflowing quotient (-2^127)/(-1), which is undefined behaviour."
 ],
 "C04": [
  "proved",
  "Bit-by-bit characterisation; Int operands are rejected."
 ],
 "C05": [
  "proved",
  "Shifts by amounts below 128; C05_shift_undefined_reachable shows that larger amounts are undefined behaviour in the code."
 ],
 "C06": [
  "proved",
  "All six comparisons agree with the order of the integers; trichotomy."
 ],
 "C07": [
  "proved",
  "Table, error table, symmetry, soundness."
 ],
 "C08": [
  "proved",
  "Exact characterisation for every well-formed value and type, idempotence, use in binary operators."
 ],
 "C09": [
  "proved",
  "Reduction modulo 2^w, agreement with the lossless conversion."
 ],
 "C10": [
  "partial",
  "Holds except for Bool ==/!= and the operator code 'conversion', for which the check accepts and evaluation throws (proved: C10_bool_equality_throws, C10_conversion_code_throws)."
 ],
 "C11": [
  "proved",
  "Conversions, unary, binary, if-expression, for all operator codes."
 ],
 "C12": [
  "partial",
  "Soundness of every returned value and error is proved without exception. Folding can throw where concrete evaluation is defined: proved for / % << >> of an unknown Uint by a constant (C12_uint_known_divisor_throws); C12_binary_clean_partial shows these, Bool equality and 'conversion' are the only cases."
 ],
 "C13": [
  "proved",
  "Complete characterisation over all argument lists of well-formed values."
 ],
 "C14": [
  "proved",
  "Chosen operand, converted losslessly; the other operand has no influence."
 ],
 "C15": [
  "partial",
  "Proved for every literal with lower-case digits and value below 2^128 (2^127 for signed). The overflow check detects every binary overflow but misses others (C15_overflow_undetected), and digits of the wrong base are accepted (C15_foreign_digits_accepted)."
 ],
 "C16": [
  "partial",
  "Matching is sound, maximal and complete. Matched literals parse to their value if written in lower case and below 2^127; C16_upper_case_unparsable shows a matched literal that does not parse."
 ],
 "C17": [
  "proved",
  "Exact characterisation (iff) of the comment and string matchers, and of the whitespace matcher, for every text."
 ],
 "C18": [
  "proved",
  "Longest identifier prefix; zero iff none; is_identifier iff identifier."
 ],
 "C19": [
  "proved",
  "Tokens tile the text with white space between them, in order, for successful and failed runs."
 ],
 "C20": [
  "partial",
  "Every token's text is a lexeme of its type, except && and !, whose length table entry is 3 (C20_wrong_length, C20_operand_swallowed). C20_length_table shows these are the only wrong entries."
 ],
 "C21": [
  "partial",
  "Exact line and column when no string literal (and no overlong && or ! token) contains a line break or tab; C21_multiline_string is the counterexample."
 ],
 "C22": [
  "partial",
  "Termination and located errors for every text. C22_no_exception_partial gives the texts for which no exception is thrown; C22_exceptions lists witnesses that throw."
 ],
 "C23": [
  "proved",
  "All three values; operators are the exact Kleene abstraction."
 ],
 "C24": [
  "proved",
  "Strict partial order; complete description for binary operators; levels."
 ],
 "C25": [
  "proved",
  "Refinement to a stack of maps for every history of operations."
 ],
 "C26": [
  "partial",
  "Every cycle from every well-formed state has exactly the specified effect, error or abnormal outcome; the effect is unique, local and preserves well-formedness. Exception: a jump to before the program is not reported as an error (C26_negative_jump); the next cycle then throws (C26_step)."
 ],
 "C27": [
  "proved",
  "For every number of cycles from a call: balanced return with the caller's frames and address, and independence from the caller's variables."
 ],
 "C28": [
  "proved",
  "Every function for which generation succeeds; the absence of placeholders assumes break and continue inside loops, as analysis ensures."
 ],
 "C29": [
  "proved",
  "Every function and every previous output; also position independence of the code."
 ],
 "C30": [
  "partial",
  "Every well-typed expression in every surrounding code, stack and store, including calls; branches of conditional expressions must already have the type of the expression (C30_conditional_violation shows that the code does not convert them)."
 ],
 "C31": [
  "partial",
  "Statements: every well-typed statement. Calls: the outcome is that of the reference semantics if and only if, including divergence. Assumes stored values have the type of the variable already (C33_violation), functions end with return (C31_end_violation, C31_fallthrough_violation), and declarations without initializer are executed once (C31_stale_violation; C31_calls_stale_partial without this assumption)."
 ],
 "C32": [
  "proved",
  "C32_short_circuit for every pair of expressions without typing assumptions; C32_operands_partial relates it to direct evaluation under the assumptions of C30."
 ],
 "C33": [
  "partial",
  "Violated for initializers and assigned values of another type (C33_violation). After every statement whose stored values have the declared type, all variables have their declared type."
 ],
 "C48": [
  "partial",
  "Calls of compiled functions, under the assumptions of C31."
 ],
 "C37": [
  "proved",
  "All styles, all texts; the exception for texts that contain the entities themselves is real (C37_ampersand)."
 ],
 "C38": [
  "partial",
  "Depth, nesting and excess closing tags for all call sequences; is_done answers true while attributes are written and before anything is written (C38_is_done_attributes, C38_is_done_initial); block-like tags with attributes throw (C38_block_attributes)."
 ],
 "C39": [
  "proved",
  "All nestings of appends and attempts, including attempts left by exceptions; resize with lengths of other origin breaks the invariant (C39_resize_violation)."
 ],
 "C49": [
  "partial",
  "Values without double quote, tab and line end; in front of /> the last value must be empty or quoted. Violated otherwise (C49_quote, C49_tab, C49_slash)."
 ],
 "C50": [
  "partial",
  "At most once and first is proved for all call sequences; that a finished document has it is violated (C50_done_without_preamble)."
 ],
 "C42": [
  "partial",
  "For all token sequences: parsing ends, and what is accepted is a sentence of the grammar with its tree, if the grammar is extended by calls without commas and strings as expressions. For grammar.ebnf itself it is violated (C42_violated_comma, C42_violated_string, C42_violated_chain)."
 ],
 "C43": [
  "proved",
  "Every pair of token sequences that differ in comments only; result, error rule, expected tokens and error token agree."
 ],
 "C51": [
  "partial",
  "All programs without obstructed comparisons, a condition on the tokens that is defined in Spec/Grammar.lean. Violated otherwise (C51_violated_argument, C51_violated_parentheses, C51_violated_else, C51_violated_type)."
 ],
 "C52": [
  "proved",
  "All nodes of every accepted program, including that abandoned alternatives leave no nodes behind."
 ],
 "C53": [
  "partial",
  "All token sequences without @; violated by annotations with wrong arguments (C53_violated_annotation)."
 ],
 "C44": [
  "partial",
  "Holds for every operator token except >=, which is accepted and then throws (C44_greater_or_equal)."
 ],
 "C46": [
  "proved",
  "Every token of a run and every longer text."
 ],
 "C47": [
  "partial",
  "Holds if the asserted value was computed by the instruction before; otherwise the comparison of an earlier assertion is reported (C47_stale_comparison)."
 ],
 "C34": [
  "proved",
  "All histories of scopes and definitions, and every name. Shadowing disabled, as in the statement and in all uses; with shadowing enabled the outer declaration is found (C34_shadowing_violation)."
 ],
 "C35": [
  "partial",
  "All programs: the first fault in source order decides the error, and success binds every name to a visible declaration; violated for unknown functions called in widths of parameters, which throw (C35_width_violation)."
 ],
 "C45": [
  "proved",
  "All histories of requests with deduced widths, also the contents of instances. Which functions cannot be instantiated at all is in C45_global_violation and C45_null_violation."
 ],
 "C54": [
  "partial",
  "All programs without self-references in functions with a requires-clause and without calls in types of signatures, all functions that are not generic. Instances of generic functions that are declared before their use are accepted without analysis (C54_instance_violation); a function with a requires-clause counts as Bool in its own body (C54_recursion_violation)."
 ],
 "C55": [
  "proved",
  "All programs with distinct keys of functions; name lookup and analysis of types together."
 ],
 "C56": [
  "partial",
  "Under the conditions of C54 on the program and those of C31 (known code generation faults) on the functions that are called in constant expressions."
 ],
 "C57": [
  "partial",
  "Proved for all values that are known: constants, widths, static assertions and requires-clauses agree with the source semantics, under the conditions of C54 on the program and of C31 on the functions that constant expressions call. Concrete violation: a typed constant whose initializer cannot be computed is accepted and has no value (C57_unknown_violation)."
 ],
 "C58": [
  "partial",
  "Proved for all programs without calls in constant expressions (initializers of constants, static assertions, requires-clauses, widths), including recursive and generic functions: analysis ends, and the result does not depend on the bound of the model (C58_ends_partial, C58_bound). With calls in constant expressions, proved if all functions that are called there, directly or not, have no loops, return on every path and are not generic (C58_calls_partial; C58_text_partial and C58_decided_partial for texts); other functions may do what they like. Violated otherwise: analysis does not end for functions that are called in their own signature, for constants that are computed by an infinite loop, and for constants that call a function without return, whose code runs on into the next function (C58_signature_violation, C58_constant_violation, C58_fallthrough_violation). Missing: generic functions and loops that end in constant expressions."
 ],
 "C59": [
  "partial",
  "Proved for calm programs (Spec/Calm): no generic functions, constant expressions without calls that can be computed or have an error that has to be reported, no functions that call themselves without a requires-clause. Violated in general: see C59_ub_violation and C59_throws_violation; programs whose analysis throws or has undefined behavior."
 ],
 "C60": [
  "partial",
  "All programs without the operator >=. Violated by every program with it: making the tree throws (C60_violation, an equivalence). C60_analyzed: every text that reaches analysis, with or without annotations, reaches it as a tree of its syntax, and does not contain >=. C54_text_partial puts tokenization, parsing, tree and analysis together."
 ],
 "C40": [
  "partial",
  "Raw blocks with some text in them are matched up to the balancing brace, and an error is reported exactly if there is none. Violated by the empty block: {} throws whatever follows (C40_empty_violation)."
 ],
 "C41": [
  "partial",
  "Documents in which comments follow white space, which do not end where a comment starts, without empty braces and without directive names after ul in the alphabet: the parser ends within 4 n + 11 steps with a document or a located error. Violated by words followed by a comment in a span (never ends), by empty braces, by // at the end and by comments in titles (exceptions), and by directive names such as var (read past the end of the table)."
 ],
 "C61": [
  "proved",
  "For all texts and all accepted documents. C61_spans: nodes lie in each other. Apart from that the source span of paragraph nodes is left open, because it is wrong (C61_paragraph_violation), and so are numbers that do not fit 63 bits (C61_number_violation)."
 ],
 "C62": [
  "partial",
  "Missing: comments that do not follow a space (C62_comment_violation, where the parser does not end), upper case digits (C62_upper_case_violation) and numbers of more than 63 bits (C62_number_violation: for all of them up to 127 bits the document has another number). Errors are characterized with the conditions of C41_partial."
 ],
 "C36": [
  "partial",
  "Missing: `@inline`, which is unknown to the program under its documented name (C36_inline_violation), and the parameter that a stored value belongs to, which is forgotten (C36_association_violation). The quantifier is over every list of arguments whose values are literals of the lexical grammar."
 ],
 "C63": [
  "partial",
  "Missing: programs with `@inline` (C36_inline_violation). Some annotations cannot be written at all, because the parser throws: negative numbers (C63_negative_violation) and the parameter `function` by name (C63_keyword_violation)."
 ],
 "C64": [
  "partial",
  "Missing: `&&` that is not followed by a space and `!` that is not followed by two, because these tokens take three characters, and a block comment at the end of the text, where the tokenizer throws (C64_violated)."
 ],
 "C65": [
  "partial",
  "Missing: programs with `else` and a block, call statements, `requires` clauses, `!`, and conversions of operations with two operands, for all of which it does not hold (C65_else_violation, C65_call_violation, C65_requires_violation, C65_not_violation, C65_conversion_violation). For the round trip through the parser also comparisons that the parser misreads and `>=`, as in C51 and C60. Annotations and string literals are not modelled."
 ],
 "C66": [
  "partial",
  "Missing: it is false for `\\br`, `\\hr`, `\\c{..}`, `\\note`, `\\item`, comments in paragraphs, lists with arguments, directives with arguments and without a block (C66_unsupported_violation, C66_throws_violation, C66_comment_violation, C66_unclosed), for `\\instruction` without a block (C66_null_violation), and for `\\sup` (C66_superscript_violation); these are faults of the specification or excluded by it. Documents with a double quote in the name of an instruction (C66_quote_violation) or carriage returns in code (C67_return_violation) are excluded. Stylesheets are plain attribute values, as in C49. C66_names: which names of languages and architectures are accepted, and what they mean."
 ],
 "C67": [
  "partial",
  "Missing: programs with tabs, carriage returns, spaces at the ends of lines, or tokens that span lines, for which it is false (C67_comment_violation, C67_space_violation, C67_return_violation, C67_return_throws)."
 ],
 "C68": [
  "partial",
  "Missing: integers with absolute value 2^64 or more whose lower 19-digit parts begin with zeros, for which it is false, as the parts are not padded (C68_violation, C68_same_text_violation); C68_to_string_partial says exactly which integers are written correctly."
 ],
 "C69": [
  "partial",
  "Missing: right operands that are operations on the same level without the option for parentheses everywhere, repeated signs and signs before negative constants, conditional expressions, constants with c_23, and names that are reserved in C, for which it is false (C69_right_operand_violation, C69_right_operand_meaning, C69_sign_violation, C69_negative_violation, C69_conditional_violation, C69_constant_violation, C69_name_violation). The grammar of C is Spec/CLang; that operations on the types of C compute what they compute in BMS is not part of the claim."
 ],
 "C70": [
  "partial",
  "Missing: functions with parameters, else with a block, calls as statements and generic functions, for which it is false (C70_parameter_violation, C70_else_violation, C70_call_violation, C70_generic_violation), and the expressions for which C69 is false."
 ],
 "C71": [
  "partial",
  "Missing: programs with constants that analysis accepts without value, for which the generator throws (C71_unknown_violation, C57_unknown_violation). C71_types assumes that values and types have been found by analysis (Ready); C82_ready_partial shows this for accepted programs."
 ],
 "C72": [
  "partial",
  "Missing: programs outside of SameProgram: operations on Uint of less than 32 bits, on Int where the result does not fit into int, constants of type Uint without an operand of this type, literals of 2^31 and more, and shifts by the width or more, for all of which it is false (C72_narrow_violation, C72_int_violation, C72_constant_violation, C72_literal_violation, C72_shift_violation). C72_text_partial is in addition limited as C70, and covers programs written without the option c_23. Semantics of C: Spec/CSem, for 32-bit int and 64-bit long."
 ],
 "C73": [
  "partial",
  "Missing: errors for which it is false: strings without an end and prefixes without digits throw (C73_throws, C73_unterminated_string); escape sequences are also there without colours (C73_colours). Line numbers are proved under the condition of C20 that no line feed is inside of a token (C73_numbers_partial)."
 ],
 "C74": [
  "partial",
  "Missing: errors at the end of the tokens, for which it is false (C74_end, C74_missing_semicolon), and that the token that is blamed is not among those that are expected, which is false (C74_expected_anyway). Line numbers are proved under the condition of C20 (C74_numbers_partial)."
 ],
 "C75": [
  "partial",
  "Missing: errors at the end of a document, which throw (C75_throws), and at line feeds, where the wrong line is quoted (C75_newline)."
 ],
 "C76": [
  "partial",
  "Missing: errors of code that begins with a line feed, where the wrong line is quoted (C76_code). Misuse of the writer has no place."
 ],
 "C77": [
  "proved",
  "C77_text assumes ordered spans, which C39 shows for every editing operation (C77_generated); colours are proved for texts without escape characters."
 ],
 "C78": [
  "partial",
  "Nodes for lists of parameters and annotations are at their last element instead of the first one (C78_lists); the table of IntroducedBy states this."
 ],
 "C79": [
  "partial",
  "C79_tokens, C79_cut and C79_document: all tokens and all nodes of documents are shown. Trees of programs are shown if annotations have at most one argument, and otherwise behaviour is undefined (C79_arguments, an equivalence). Dumps of documents contain escape sequences without colours (C79_colours)."
 ],
 "C80": [
  "partial",
  "Proved for programs without generic functions, without calls in constant expressions, and without functions that call themselves (these count as Bool or have no value in their own body: C54_recursion_violation). The rules are in Spec/WellTyped. C80_order: a call before the constants in the signature of the called function are declared is rejected, although calls before the declaration of functions are allowed."
 ],
 "C81": [
  "partial",
  "Proved for all places that make errors but two (Reportable): for return statements whose expression has a wrong type, an assertion fails and nothing is reported (C81_return, C81_return_program); errors of execution in constant calls lead to reading a value that was never written (C81_execution, C81_execution_program). Errors of operators are reported without their reason (C81_hidden), wrong values of arguments without the allowed values (C81_argument_value), and the note about a width that cannot be deduced quotes the wrong expression (C81_deduction). Which place makes the error of a program is given by FailsAt (code, node and kind of node), not by the model of analyze itself, which has no causes; C87_report_partial shows that there is one for every rejected text."
 ],
 "C82": [
  "partial",
  "C82_ready_partial: analysis leaves everything that the generators of C and C++ code read, if all constants have values; C82_generates_partial, C82_text_partial: so code is generated iff the types have names in the language, and otherwise the error is the width of an integer. C82_safe_partial: never undefined behaviour, and exceptions only with constants without values. C82_bms: BMS code is the same as before analysis, without restrictions. Violated: C82_unknown_violation (a constant with a value that is not known is accepted, then the generator throws), C82_language_violation (rust, java, kotlin, javascript and typescript can be named but only throw). Missing: calls in signatures, functions with requires-clauses that call themselves."
 ],
 "C83": [
  "partial",
  "C83_help, C83_unknown: help and unknown commands. C83_tokens, C83_verify, C83_generate, C83_html: status 0 iff the command can be carried out, and then its result is shown or written; C83_tree_partial and C83_document_tree for dump_ast of programs and documents; C83_suffix for files of other kinds. C83_sound: what is generated is also accepted by verify; C83_accepted_partial: for what verify accepts, code is generated or its widths have no types. C83_status: the status is 0 or 1, and pages are only written with status 0. C83_file, C83_program_errors_partial, C83_document_errors_partial: what is reported with status 1. Violated: C83_html_violation (html of a BMS file does nothing and ends with status 0; a conversion that fails leaves the output file empty), C83_colour_violation (messages about names of files leave the terminal red). Missing: what C73 to C76, C81 and C82 leave open."
 ],
 "C84": [
  "partial",
  "C84_variant, C84_no_leak, C84_access, C84_equal: variants, for all sequences of operations. C84_void: Result<void, Error>. C84_result_partial: Result<T, Error> without assignment by a move; C84_violation: every such assignment is undefined behaviour, because it returns nothing. Assignments of results that throw, which end the program, are excluded."
 ],
 "C85": [
  "partial",
  "C85_blame_partial: an error of analysis is one of name lookup (C35) or a broken rule, for every program without calls in signatures; C85_text_partial: for texts; C85_clean_partial: a program that breaks no rule is not rejected. C85_fine: a program that breaks none. Violated: C85_violation (a function with a requires-clause that calls itself is rejected for a wrong type although the types fit; the rules count the call as Bool there). Missing: the rules leave open the types of calls in constant expressions, the values of widths that are no literals, which constant expressions fail and which value is false, and when a function that calls others cannot be run yet."
 ],
 "C86": [
  "partial",
  "C86_meaning: texts whose tokens have the same lexemes are compiled to the same result; C86_errors: with the same syntax error at the same token; C86_text_partial: for texts that are written with the same tokens. Missing: `&&` and `!` that are not followed by enough spaces, because these tokens take three characters, and a block comment at the end of the text (C86_violated, C64_violated)."
 ],
 "C87": [
  "partial",
  "C87_report_partial: for every rejected text there is a token that introduces a node, the program is wrong there as the code of the error says (Wrong: C35 for names, C85 for rules), one of the places in the code that make errors makes such an error, and whichever does, the report begins with the message of this code, the position of the token and its line; C87_terminal_partial: the same for what verify and generate show. C87_world and C87_sample: the hypotheses can be met. Missing: results with a wrong type, for which nothing is reported (part of the theorems, and C81_return), errors of execution (C81_execution), widths, which have a message of their own (C81_width), calls of functions that are not analyzed yet, where the model names the function instead of the call, signatures with calls, and what C85 leaves open. Which place makes an error is not part of the model of analysis (MakesErrors)."
 ],
 "C88": [
  "partial",
  "C88_reset_partial, C88_clear_partial: all answers are the same, for all sequences of calls before and after, except that a failed assertion may name a comparison where the new machine names none. C88_reset_same: exactly the same for programs without assertions. C88_sample: a case. Violated: C88_violation (a comparison from before the reset is named with a later failed assertion)."
 ],
 "C89": [
  "partial",
  "C89_names: name lookup, for all programs and all orders. C89_accepted_partial: calm programs (Spec/Calm) that follow the rules (Spec/WellTyped) are accepted, also if functions are moved towards the end, past constants and other functions; C89_last_partial: all functions behind everything else, in any order; C89_not_rejected_partial: without being calm. The addresses of nodes are kept. Violated otherwise: C89_violation (with a generic function, one order is accepted and the other one rejected; a function in front of a constant is rejected)."
 ],
 "C90": [
  "partial",
  "C90_names: name lookup, for all programs: it succeeds for both or fails for both with the same error, and the results are calm, or follow the rules, both or not at all. C90_accepted_partial: a text with the same program as a calm program (Spec/Calm) that follows the rules (Spec/WellTyped) is accepted. C90_again_partial: so is the text that the generator of BMS code writes, under the conditions of C65_again_partial. C90_moved_partial: texts in which functions were moved towards the end. Programs that are not calm, in particular with generic functions, and programs that are rejected: see C91. Missing: functions that are moved in programs that are not calm."
 ],
 "C91": [
  "partial",
  "C91_verdict: for any two programs that are written in the same way, with any addresses of nodes, analysis has the same result. C91_texts: for any two texts that are made into such programs. Both without restrictions. C91_again_partial: for generated BMS code, with the restrictions of C65_again_partial (printable programs, no obstructed lookahead, no `>=`, less than 2^64 tokens), hence the status."
 ],
 "C92": [
  "partial",
  "C92_programs: for any two accepted programs that are written in the same way, with any addresses of nodes, all generators give the same result. C92_texts: for any two texts. C92_command: for the generate command and two files that verify accepts. C92_verify: verify accepts both files or none, if annotations are allowed. These are without restrictions. C92_between_partial: generated BMS code is accepted, gives the same code in all languages, and does not change if it is generated again; with the restrictions of C65_again_partial, hence the status."
 ],
 "C93": [
  "partial",
  "C93_dump_partial: programs with the same dump have the same instructions at the same places, with the same names of variables, if numbers have at most 64 bits; types of numbers that are pushed are left open. C93_lines: one line per instruction, with the same restriction. C93_generated_partial: the same for the code that is generated for any two functions in whose trees known values have at most 64 bits. The rest is violated: C93_type_violation (the line does not show the type of a number) and C93_number_violation (10^20 is shown as 100)."
 ]
}
