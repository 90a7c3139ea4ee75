{"id": "C01", "title": "Uint arithmetic is arithmetic modulo 2^N", "statement": "Evaluating x + y, x - y, x * y or unary -x on Uint(N) operands always succeeds, and the result is the Uint(N) value congruent to the mathematical result modulo 2^N; it never leaves [0, 2^N).", "quantifier": "every width N a Uint type can have, every pair of operand values of that type", "why_tests_cant": "2^(2N) operand pairs for each of 127 widths; wrap-around errors hide at widths and values a suite does not list", "anchors": ["src/bms/evaluation/operations.cpp:evaluate_binary_operator", "src/bms/evaluation/operations.cpp:evaluate_unary_operator", "src/bms/concrete_value.hpp:transform_uint"]}
{"id": "C02", "title": "Int arithmetic is exact or flagged", "statement": "For Int operands +, -, * and unary minus yield the exact mathematical result whenever that result fits the 128-bit representation. When it does not fit, the README promise of infinite precision is broken: the C++ code has undefined behaviour, and no other input of these operators has.", "quantifier": "every pair of 128-bit signed operands", "why_tests_cant": "the failing inputs are a thin boundary set in a space of 2^256 pairs; sanitizers only see executed inputs", "anchors": ["src/bms/evaluation/operations.cpp:evaluate_binary_operator", "src/bms/evaluation/operations.cpp:evaluate_unary_operator", "README.md"]}
{"id": "C03", "title": "Division and remainder obey the truncated division law and never divide by zero", "statement": "x / y and x % y report division_by_zero exactly when the divisor (after conversion to the common type) is zero. Otherwise quotient q and remainder r satisfy x = q*y + r, |r| < |y|, and r is zero or has the sign of x. The only other outcome is the single overflowing pair (most negative Int) / -1.", "quantifier": "every pair of integer operands of equal or convertible types", "why_tests_cant": "the law couples two operators over an unbounded operand space", "anchors": ["src/bms/evaluation/operations.cpp:evaluate_binary_operator"]}
{"id": "C04", "title": "Bitwise operators act bit by bit", "statement": "For Uint(N), bit i of x & y, x | y, x ^ y and ~x is the Boolean function of bit i of the operands for i < N, and all bits at or above N stay zero.", "quantifier": "every width, every operand pair, every bit index", "why_tests_cant": "a test checks chosen masks; the claim is for all bit positions of all values", "anchors": ["src/bms/evaluation/operations.cpp:evaluate_binary_operator", "src/bms/evaluation/operations.cpp:evaluate_unary_operator"]}
{"id": "C05", "title": "Shifts are multiplication and flooring division by powers of two", "statement": "For Uint(N) and shift amount s < 128, x << s is (x * 2^s) mod 2^N and x >> s is floor(x / 2^s). An amount of 128 or more, although accepted by the type checker for wide types, is not given a meaning (undefined behaviour), and shift_too_much is never reported for known operands.", "quantifier": "every width, value and shift amount", "why_tests_cant": "the boundary between defined and undefined amounts depends on value ranges, not on a finite list", "anchors": ["src/bms/evaluation/operations.cpp:evaluate_binary_operator", "src/bms/evaluation/evaluation_error.hpp"]}
{"id": "C06", "title": "Comparisons are the mathematical order", "statement": "On two integer operands of a common type ==, !=, <, >, <=, >= return Bool true exactly when the mathematical relation holds; exactly one of <, ==, > is true and the four others are derived from them.", "quantifier": "every pair of operands of Int or Uint(N) type", "why_tests_cant": "trichotomy and agreement of six operators over unbounded pairs", "anchors": ["src/bms/evaluation/operations.cpp:evaluate_binary_operator"]}
{"id": "C07", "title": "Common type rules", "statement": "The common type of two operand types is symmetric and idempotent: equal types give that type, Int with Uint(N) gives Uint(N) in either order, two Uints of different width give incompatible_widths, anything else incompatible_types. The common type is always one of the operands, and both operands are convertible to it.", "quantifier": "every pair of types of every width", "why_tests_cant": "relational laws over all pairs and widths", "anchors": ["src/bms/evaluation/operations.cpp:get_common_type", "src/bms/concrete_type.hpp:is_convertible_to"]}
{"id": "C08", "title": "Lossless conversion never changes a value", "statement": "Converting a value losslessly either returns a value of the target type with the same mathematical value, or fails; from Int to Uint(N) it succeeds exactly for values in [0, 2^N), with int_to_uint_range_error otherwise. Converting between types that are not convertible gives type_error. Converting twice to the same type is the same as once.", "quantifier": "every value of every type, every target type", "why_tests_cant": "negative and large values of all 127 widths", "anchors": ["src/bms/concrete_value.hpp:convert_to", "src/bms/evaluation/operations.cpp:evaluate_conversion"]}
{"id": "C09", "title": "Truncating conversion keeps the low bits", "statement": "A truncating conversion of an Int value v to Uint(N) always succeeds and returns v modulo 2^N; it agrees with the lossless conversion whenever that one succeeds.", "quantifier": "every Int value and width", "why_tests_cant": "unbounded value space", "anchors": ["src/bms/concrete_value.hpp:convert_to"]}
{"id": "C10", "title": "Type checking of operators predicts evaluation", "statement": "If check_unary_operator / check_binary_operator / check_if_expression accept operand types and report type T, then evaluating the operator on any values of these types never reports a type_error and never throws, and a successful result has type T. If they reject, evaluation reports type_error.", "quantifier": "every operator and every pair of well-formed values", "why_tests_cant": "agreement of two separately written case analyses over all operator/type combinations and all values", "anchors": ["src/bms/evaluation/operations.cpp:check_unary_operator", "src/bms/evaluation/operations.cpp:check_binary_operator", "src/bms/evaluation/operations.cpp:check_if_expression", "src/bms/evaluation/operations.cpp:evaluate_binary_operator", "src/bms/evaluation/operations.cpp:evaluate_unary_operator"]}
{"id": "C11", "title": "Operators preserve value invariants", "statement": "Starting from well-formed values (Bool is 0 or 1, Uint(N) in [0, 2^N), Int in 128 bits, Void 0), every operator, conversion, if-expression and builtin call that succeeds yields a well-formed value.", "quantifier": "every operator and every well-formed operand", "why_tests_cant": "inductive invariant over all computations", "anchors": ["src/bms/evaluation/operations.cpp", "src/bms/concrete_value.hpp"]}
{"id": "C12", "title": "Constant folding agrees with concrete evaluation", "statement": "Evaluating an operator on possibly unknown Values is sound: if it yields a known value, then the concrete evaluation with any choice of the unknown operands yields this value; if it yields an error, then concrete evaluation of any choice of unknowns also fails; an unknown result has the type of every concrete result.", "quantifier": "every operator, every mix of known and unknown operands, every instantiation of the unknown ones", "why_tests_cant": "quantifies over all instantiations of unknown operands", "anchors": ["src/bms/evaluation/operations.cpp:evaluate_binary_operator(Value)", "src/bms/evaluation/operations.cpp:evaluate_unary_operator(Value)", "src/bms/evaluation/operations.cpp:evaluate_if_expression(Value)", "src/bms/evaluation/operations.cpp:evaluate_builtin_function(Value)"]}
{"id": "C13", "title": "assert succeeds exactly on true", "statement": "Calling the builtin assert with one Bool argument succeeds with Void if the argument is true and fails with assertion_fail if it is false; with any other number or type of arguments it reports type_error.", "quantifier": "every argument list", "why_tests_cant": "argument lists are unbounded", "anchors": ["src/bms/evaluation/operations.cpp:unsafe_evaluate_builtin_function_impl", "src/bms/evaluation/operations.cpp:check_builtin_function"]}
{"id": "C14", "title": "If-expressions pick one branch and convert it to the common type", "statement": "evaluate_if_expression yields the selected branch converted losslessly to the common type of both branches; the branch not taken never influences success, failure or the value.", "quantifier": "every triple of values", "why_tests_cant": "non-interference of the branch not taken quantifies over all its values", "anchors": ["src/bms/evaluation/operations.cpp:evaluate_if_expression"]}
{"id": "C15", "title": "Integer literals denote their positional value", "statement": "Parsing an unsigned literal with prefix 0b, 0x, 0 or none returns the value sum(digit * base^position) of its digits whenever it is below 2^128 and every digit is one of the base's lowercase digits, and otherwise no value.", "quantifier": "every digit string of any length in each base", "why_tests_cant": "overflow detection must be right for strings of every length; failing strings are sparse", "anchors": ["src/common/parse.cpp:parse_uinteger_literal", "src/common/parse.cpp:parse_integer_literal"]}
{"id": "C16", "title": "Every literal the tokenizer accepts parses to its value", "statement": "If match_integer_literal matches a prefix of the text, the matched text is a maximal non-empty literal of the reported kind, and parse_integer_literal of the matched text returns its positional value.", "quantifier": "every source text", "why_tests_cant": "relates two functions on all strings (digit sets of matcher and parser must agree)", "anchors": ["src/common/parse.cpp:match_integer_literal", "src/common/parse.cpp:match_digits", "src/common/parse.cpp:parse_integer_literal"]}
{"id": "C17", "title": "Comment and string literal matching", "statement": "match_line_comment matches // up to but excluding the first newline; match_block_comment matches /* up to and including the first */ after it; match_string_literal matches from the opening quote to the first unescaped quote. They report unterminated with the full length exactly when no such end exists, and do not match texts that start differently.", "quantifier": "every text", "why_tests_cant": "first-occurrence and escape-parity claims over all strings", "anchors": ["src/common/parse.cpp:match_line_comment", "src/common/parse.cpp:match_block_comment", "src/common/parse.cpp:match_string_literal"]}
{"id": "C18", "title": "Identifier matching is maximal munch", "statement": "match_identifier returns the length of the longest prefix of the form [_a-zA-Z][_a-zA-Z0-9]*, zero if there is none, and is_identifier holds exactly when the whole text is matched.", "quantifier": "every text", "why_tests_cant": "maximality over all strings", "anchors": ["src/common/parse.cpp:match_identifier", "src/common/parse.hpp:is_identifier"]}
{"id": "C19", "title": "Tokens tile the source text", "statement": "After successful tokenization the tokens are non-empty, in source order, disjoint, lie inside the source, and the text not covered by any token consists only of whitespace. The source can be rebuilt from token texts and the gaps.", "quantifier": "every source text that tokenizes successfully", "why_tests_cant": "an invariant over all texts and all loop iterations", "anchors": ["src/bms/tokenization/tokenize.cpp:tokenize"]}
{"id": "C20", "title": "Token text matches token type", "statement": "The text covered by a produced token has the token's type: an operator or keyword token covers exactly its spelling, an identifier token covers an identifier that is no keyword, a literal or comment token covers a literal or comment of that kind.", "quantifier": "every token of every successfully tokenized text", "why_tests_cant": "a relation between two hand-written tables and the scanner for all texts", "anchors": ["src/bms/tokenization/tokenize.cpp:tokenize", "src/bms/tokenization/tokenize.cpp:match_fixed_length_token", "src/bms/util.cpp:token_type_length", "src/bms/tokenization/tokenize.cpp:keyword_by_name"]}
{"id": "C21", "title": "Token line and column numbers", "statement": "The position stored in each token is the position reached by scanning the source before it character by character: line counts the newlines before it, the column counts from the last newline or carriage return with a tab counting four.", "quantifier": "every token of every source text", "why_tests_cant": "positions accumulate over the whole prefix of arbitrary length", "anchors": ["src/bms/tokenization/tokenize.cpp:advance_position_by", "src/bms/tokenization/tokenize.cpp:tokenize"]}
{"id": "C22", "title": "Tokenization terminates with tokens or a located error", "statement": "For every source text tokenize returns after at most as many iterations as the text has characters, and either succeeds or reports an error whose position lies inside the text; it never throws.", "quantifier": "every source text", "why_tests_cant": "termination and absence of assertion failures for all inputs", "anchors": ["src/bms/tokenization/tokenize.cpp:tokenize", "src/bms/tokenization/tokenize.cpp:try_match"]}
{"id": "C23", "title": "Tribool is Kleene logic", "statement": "Tribool's !, &&, || are the Kleene three-valued connectives with fawse < maybe < twue (minimum, maximum, order reversal), equals/not_equals return maybe when an operand is maybe and decide equality otherwise; De Morgan, commutativity, associativity and distributivity hold, and the bool values embed faithfully.", "quantifier": "all operands (complete finite domain)", "why_tests_cant": "the bit-level encoding must be proved equal to the logic; the existing test lists only single entries", "anchors": ["src/common/tribool.hpp"]}
{"id": "C24", "title": "Operator precedence is a strict partial order", "statement": "compare_precedence is a strict partial order on expression kinds: irreflexive (an operator is unordered with itself, so no operator chains), asymmetric, transitive, and antisymmetric under argument swap; among binary operators only comparison versus arithmetic is ordered.", "quantifier": "all pairs and triples of expression kinds", "why_tests_cant": "relational laws over the whole table", "anchors": ["src/bms/expression_type.hpp:compare_precedence"]}
{"id": "C25", "title": "Variable storage is a stack of maps", "statement": "Linear_Map_Stack behaves as a stack of finite maps: find returns the value most recently assigned to a key in the topmost frame and nothing if the key was not assigned in it; assign changes only this key; entries of lower frames are invisible and unchanged until their frame is on top again; pop_frame undoes everything since the matching push_frame and returns its value.", "quantifier": "every sequence of operations", "why_tests_cant": "refinement over all histories", "anchors": ["src/bms/vm/linear_map_stack.hpp"]}
{"id": "C26", "title": "A VM step is deterministic, total and local", "statement": "cycle() on any machine state either performs exactly the documented effect of the instruction at the instruction counter or reports an error (or, for a counter outside the program, throws); it changes only the top of the stack and the topmost variable frame, never the program.", "quantifier": "every program and every machine state", "why_tests_cant": "all states of all programs", "anchors": ["src/bms/vm/vm.cpp:Cycle_Impl", "src/bms/vm/vm.cpp:cycle", "src/bms/vm/vm.hpp"]}
{"id": "C27", "title": "Calls are isolated and balanced", "statement": "From a call instruction to the matching return the callee sees none of the caller's variables and cannot change them; upon return the caller's frame is exactly as before the call and execution continues after the call.", "quantifier": "every program, every call depth, every execution", "why_tests_cant": "holds for executions of arbitrary length and recursion depth", "anchors": ["src/bms/vm/vm.cpp:Cycle_Impl", "src/bms/vm/linear_map_stack.hpp"]}
{"id": "C28", "title": "Generated code is closed: no symbolic jumps, jumps stay inside", "statement": "Successful code generation for a function emits no break/continue placeholder, and every relative jump it emits targets an instruction of this function or the point directly after it.", "quantifier": "every function body of any size and nesting", "why_tests_cant": "structural induction over all programs", "anchors": ["src/bms/vm/codegen.cpp:generate_code(While_Statement)", "src/bms/vm/codegen.cpp:generate_code(If_Statement)", "src/bms/vm/codegen.cpp:generate_code(Binary_Expression)"]}
{"id": "C29", "title": "Failed code generation leaves the output unchanged", "statement": "generate_code either appends instructions after the existing ones or reports an error and leaves the instruction vector exactly as it was.", "quantifier": "every function, every previous content", "why_tests_cant": "every failure point inside arbitrarily nested code", "anchors": ["src/bms/vm/codegen.cpp:generate_code(Function)", "src/bms/vm/codegen.hpp"]}
{"id": "C30", "title": "Compiled expressions compute the value of the expression", "statement": "Running the code generated for an expression pushes exactly one value, the one a direct evaluation of the expression gives (with || and && evaluated left to right and short-circuited, and the unused branch of an if-expression not evaluated), leaves the rest of the stack and all variables unchanged, and fails with the same evaluation error if the direct evaluation fails.", "quantifier": "every expression, every environment, every surrounding code and stack", "why_tests_cant": "compiler correctness for all programs", "anchors": ["src/bms/vm/codegen.cpp", "src/bms/vm/vm.cpp"]}
{"id": "C31", "title": "Compiled statements execute like the program", "statement": "Running the code generated for statements changes the variables as the structured execution does (sequencing, if/else, while with break and continue, assignment, return), leaves the operand stack as it was, and returns the same value; executions that do not terminate in the source do not terminate in the VM without an error.", "quantifier": "every statement list, every loop count, every store", "why_tests_cant": "unbounded loop iterations", "anchors": ["src/bms/vm/codegen.cpp", "src/bms/vm/vm.cpp"]}
{"id": "C32", "title": "Short-circuit evaluation", "statement": "In a || b and a && b compiled code does not evaluate b if a decides the result: errors in b are not observed then; otherwise the result is the value of b.", "quantifier": "every pair of expressions and every environment", "why_tests_cant": "b ranges over all expressions including failing ones", "anchors": ["src/bms/vm/codegen.cpp:generate_code(Binary_Expression)"]}
{"id": "C33", "title": "Variables keep their declared type", "statement": "A variable declared with type T only ever holds values of type T at run time, so that arithmetic on it is arithmetic of T.", "quantifier": "every program accepted by the analyzer", "why_tests_cant": "type soundness over all programs and executions", "anchors": ["src/bms/vm/codegen.cpp:generate_code(Let)", "src/bms/vm/codegen.cpp:generate_code(Assignment)", "src/bms/analyze.cpp"]}
{"id": "C34", "title": "Symbol tables: a name visible in an outer scope cannot be redefined", "statement": "Defining a name succeeds exactly when it is not visible from the current scope (shadowing disabled); a successful definition makes exactly this name visible in this scope and all scopes nested in it, never in enclosing or sibling scopes; a failed one changes nothing.", "quantifier": "every chain of nested scopes and every sequence of definitions", "why_tests_cant": "all histories and nestings", "anchors": ["src/bms/symbol_table.hpp", "src/bms/analyze_name_lookup.cpp"]}
{"id": "C35", "title": "Every name reference resolves to one visible declaration", "statement": "If name lookup succeeds, then every identifier, assignment target and called function in the program is bound to a declaration of that name which is global or declared in an enclosing block; if some used name has no such declaration, lookup fails with an error for this use.", "quantifier": "every program", "why_tests_cant": "scoping over arbitrary nesting", "anchors": ["src/bms/analyze_name_lookup.cpp"]}
{"id": "C36", "title": "Annotation arguments are matched to parameters uniquely", "statement": "Matching annotation arguments never assigns two arguments to one parameter; a named argument goes to the parameter of that name, a positional one to the first parameter not yet covered; duplicate, unknown and surplus arguments are rejected; success means every parameter is covered exactly once, or has a default.", "quantifier": "every argument list", "why_tests_cant": "all orders and mixes of named and positional arguments", "anchors": ["src/bms/analyze_annotations.cpp:Annotation_Parameter_Matcher"]}
{"id": "C37", "title": "Text output contains no markup", "statement": "Escaped text written by the HTML writer contains no < and no > whatever the input, keeps all other characters in order, and unescaping &lt; and &gt; restores every input that does not itself contain these two entities.", "quantifier": "every text", "why_tests_cant": "injection freedom for all strings", "anchors": ["src/bmd/html/html_writer.cpp:write_escaped_text", "src/bmd/html/html_writer.cpp:write_inner_text"]}
{"id": "C38", "title": "HTML output is well nested", "statement": "For every sequence of writer calls that the writer's own assertions let through, depth equals the number of opened minus closed tags, closing tags beyond the opened ones throw, and is_done is true only if no tag is open.", "quantifier": "every call sequence", "why_tests_cant": "state-machine invariant over all histories", "anchors": ["src/bmd/html/html_writer.cpp", "src/bmd/html/html_writer.hpp"]}
{"id": "C39", "title": "Code strings: spans are ordered, disjoint and in bounds", "statement": "Appending to and truncating a Code_String keeps its spans in order, non-overlapping, non-empty and inside the text; rolling back to a remembered length restores text and spans exactly.", "quantifier": "every sequence of appends and rollbacks", "why_tests_cant": "invariant over histories", "anchors": ["src/bmd/codegen/code_string.hpp", "src/bmd/codegen/generator_base.hpp"]}
{"id": "C40", "title": "Raw blocks end at the matching brace", "statement": "Parsing a raw block consumes exactly the text up to the closing brace that balances the opening one, where escaped braces do not count; it fails exactly if there is no such brace.", "quantifier": "every document text", "why_tests_cant": "balance over arbitrarily deep nesting", "anchors": ["src/bmd/parsing/parse.cpp:match_raw_block_impl"]}
{"id": "C41", "title": "Document parsing terminates", "statement": "Parsing a BMD document terminates for every input with a document or a located error.", "quantifier": "every document text", "why_tests_cant": "termination for all inputs", "anchors": ["src/bmd/parsing/parse.cpp:match_paragraph", "src/bmd/parsing/parse.cpp:match_content"]}
{"id": "C42", "title": "Parser accepts only the grammar, and consumes the tokens in order", "statement": "If parsing a token sequence succeeds, the tokens (without comments) are a sentence of the grammar and the resulting tree is a derivation of exactly that sentence; in particular operators of equal or unordered precedence cannot be chained without parentheses.", "quantifier": "every token sequence", "why_tests_cant": "all token sequences of all lengths", "anchors": ["src/bms/parsing/parse.cpp", "src/bms/parsing/grammar.ebnf"]}
{"id": "C43", "title": "Comments and whitespace do not influence parsing", "statement": "Two token sequences that differ only in comment tokens parse to the same tree or fail with the same expectations.", "quantifier": "every token sequence and every way of inserting comments", "why_tests_cant": "all insertions at all places", "anchors": ["src/bms/parsing/parse.cpp:Parser"]}
{"id": "C44", "title": "Well-formed programs with any comparison operator can be analyzed", "statement": "Every binary operator token that the parser accepts is translated to the corresponding expression kind when the program tree is built; none of them throws.", "quantifier": "all operator tokens", "why_tests_cant": "agreement of three tables written in different files", "anchors": ["src/bms/ast.cpp:binary_expression_type_of_token", "src/bms/util.cpp:is_binary_operator", "src/bms/util.cpp:expression_type_token"]}
{"id": "C45", "title": "Function instances are created once per width combination", "statement": "Instantiating a generic function for the same width list returns the same instance, different width lists give different instances, and an instance found for a width list has exactly these widths.", "quantifier": "every sequence of instantiation requests", "why_tests_cant": "memoization over all request histories", "anchors": ["src/bms/instantiate.cpp", "src/bms/ast.cpp:find_instance", "src/bms/ast.hpp:Function"]}
{"id": "C46", "title": "Tokens are the longest possible match", "statement": "Where the tokenizer produces a token, no longer text starting at the same place is a lexeme of any token type.", "quantifier": "every source text and every token in its tokenization", "why_tests_cant": "all texts; the order in which alternatives are tried matters for arbitrary continuations", "anchors": ["src/bms/tokenization/tokenize.cpp:try_match", "src/bms/tokenization/tokenize.cpp:match_fixed_length_token", "src/bms/parsing/parse.cpp"]}
{"id": "C47", "title": "A failed assertion is reported with its own comparison", "statement": "If executing a program fails in an assertion and the error names a comparison, then this is the comparison whose result was asserted, with the values of its operands, and it does not hold.", "quantifier": "every program and every execution that ends in a failed assertion", "why_tests_cant": "state left behind by earlier assertions on all execution paths", "anchors": ["src/bms/vm/vm.cpp:Cycle_Impl", "src/bms/vm/vm.hpp:m_comparison_failure_for_assert"]}
{"id": "C48", "title": "Calls of compiled functions give values of the result type and no machine errors", "statement": "A call of a compiled function in a constant expression gives a value of the declared result type, or reports an error of an operation or of reading a variable without value; it never reports an empty operand stack, a jump out of the program or a branch on a value that is not a Bool.", "quantifier": "every accepted program, every function, all arguments", "why_tests_cant": "all programs and all executions of them", "anchors": ["src/bms/analyze.cpp:913-966", "src/bms/vm/vm.cpp:cycle", "src/bms/vm/codegen.cpp"]}
{"id": "C49", "title": "Attributes of written tags are read back unchanged", "statement": "A browser that reads a tag written by the HTML writer with attributes finds exactly the given keys and values in the given order, and the end of the tag where the writer put it.", "quantifier": "all keys, all values, all lists of attributes", "why_tests_cant": "all strings as values and all combinations of attributes", "anchors": ["src/bmd/html/html_writer.cpp:write_attribute", "src/bmd/html/html_writer.hpp:requires_quotes_in_attribute"]}
{"id": "C50", "title": "The document type is written exactly once and first", "statement": "In every sequence of calls that the HTML writer lets through, the document type is written at most once and nothing is in front of it; a document that counts as done has it.", "quantifier": "all sequences of calls of the HTML writer", "why_tests_cant": "all orders of calls", "anchors": ["src/bmd/html/html_writer.cpp:write_preamble", "src/bmd/html/html_writer.hpp:is_done"]}
{"id": "C51", "title": "Parser accepts every program of the grammar and gives it the right tree", "statement": "Every token sequence that is a sentence of the grammar is accepted, and the nodes that the parser returns form the tree that the grammar gives to this sentence; the grammar gives only one tree to a program.", "quantifier": "every sentence of the grammar, with comments at any place", "why_tests_cant": "all programs of all sizes; whether lookahead is misled depends on tokens arbitrarily far away", "anchors": ["src/bms/parsing/parse.cpp", "src/bms/parsing/grammar.ebnf"]}
{"id": "C52", "title": "Nodes of a parsed program form a tree", "statement": "In the result of a successful parse every node except the root is the child of exactly one node, the root is the child of none, and every child has a smaller handle than its parent, so that walks over the program visit every node once and end.", "quantifier": "every token sequence that is accepted", "why_tests_cant": "all programs; nodes are pushed in different orders in all alternatives, including ones that were tried and given up", "anchors": ["src/bms/parsing/parse.cpp", "src/bms/parsing/astp.hpp:Parsed_Program"]}
{"id": "C53", "title": "Parser reports errors instead of throwing", "statement": "For every token sequence of a source text, the parser returns a program or an error with the rule, the expected tokens and the token at which it failed; it throws no exception.", "quantifier": "every token sequence with positions inside the text", "why_tests_cant": "all token sequences of all lengths", "anchors": ["src/bms/parsing/parse.cpp"]}
{"id": "C54", "title": "Functions of accepted programs are well typed", "statement": "If analysis accepts a program, then in every function every operator, call, conversion, assignment, condition and return statement is used with types for which the language defines it, and every node carries the type that the language gives it.", "quantifier": "every program that is accepted, every function and every node", "why_tests_cant": "all programs of all sizes and all orders in which analysis gets to functions", "anchors": ["src/bms/analyze.cpp:Type_Analyzer"]}
{"id": "C55", "title": "Analysis annotates the program and does not change it", "statement": "Analysis changes nothing in a function but its types and values: names, operators, the order of statements, parameters and literals stay, calls of ordinary functions keep their target, and calls of generic functions are redirected to instances of the same function.", "quantifier": "every program that is accepted", "why_tests_cant": "all programs; every analyzed node is written back after its analysis", "anchors": ["src/bms/analyze.cpp:Type_Analyzer", "src/bms/analyze.cpp:instantiate"]}
{"id": "C56", "title": "Code that is loaded during analysis computes what the source says", "statement": "After analysis, the machine contains the code of exactly the functions that were used in constant expressions, each at its recorded address, and a call of one of them with arguments of the parameter types has the outcomes of the source semantics and no others.", "quantifier": "every program that is accepted, every compiled function, all arguments", "why_tests_cant": "all programs, all arguments, and code that was loaded before and after the function was analyzed", "anchors": ["src/bms/analyze.cpp:Type_Analyzer", "src/bms/analyze.cpp:185-197", "src/bms/vm/codegen.cpp"]}
{"id": "C57", "title": "Constants have the values that the source semantics gives to their initializers", "statement": "If analysis accepts a program, then every constant has the value of its initializer converted to its type, every width of a type is the value of the width expression, and every static assertion holds, all with values as the source semantics computes them.", "quantifier": "every program that is accepted, every constant expression", "why_tests_cant": "all constant expressions, including calls of functions with loops and recursion", "anchors": ["src/bms/analyze.cpp:Type_Analyzer", "src/bms/analyze.cpp:240-298", "src/bms/analyze.cpp:204-238", "src/bms/evaluation/operations.cpp"]}
{"id": "C58", "title": "Analysis ends", "statement": "Analysis of every program ends after finitely many steps with the analyzed program or an error.", "quantifier": "every program", "why_tests_cant": "a test that runs forever shows nothing; all programs", "anchors": ["src/bms/analyze.cpp:Type_Analyzer"]}
{"id": "C59", "title": "Analysis reports errors instead of throwing", "statement": "For every program that the parser accepts, analysis returns the analyzed program or an error; it throws no exception and has no undefined behavior.", "quantifier": "every program", "why_tests_cant": "all programs of all sizes", "anchors": ["src/bms/analyze.cpp:Type_Analyzer"]}
{"id": "C60", "title": "The tree that analysis works on is the program that was written", "statement": "For every text that the parser accepts, the tree that is analyzed has the same declarations, statements, types, expressions, operators, names and literals as the text, in the same order and nesting. All nodes are distinct, and no node carries results of an analysis.", "quantifier": "every text that is accepted by the parser", "why_tests_cant": "all programs of all sizes and nestings", "anchors": ["src/bms/ast.cpp:17-60", "src/bms/ast.cpp:290-560", "src/bms/ast.hpp", "src/bms/parsing/parse.cpp"]}
{"id": "C61", "title": "A parsed document is what was written", "statement": "If the BMD parser returns a document, then the document is the tree of the whole text: every text, directive, argument and block is where it was written, with its name, its value and its source position; spaces and comments are left out; elements are grouped into paragraphs that end at empty lines and at directives that are paragraphs of their own; directives occur only where their kind is allowed; and nothing is skipped. Paragraph nodes carry no reliable position, and numbers of 2^63 or more are not covered.", "quantifier": "every document text that is accepted", "why_tests_cant": "all documents, of all sizes and nestings", "anchors": ["src/bmd/parsing/parse.cpp", "src/bmd/parsing/ast.hpp", "src/bmd/enums.cpp"]}
{"id": "C62", "title": "Every well-formed document is accepted", "statement": "For every text that is a well-formed BMD document, the parser returns its tree, with everything but the positions of paragraphs determined by the text; the parser reports an error exactly for texts that are not documents.", "quantifier": "every text", "why_tests_cant": "all documents of all sizes and nestings; that an error is justified needs an argument about all trees", "anchors": ["src/bmd/parsing/parse.cpp", "src/bmd/enums.cpp"]}
{"id": "C63", "title": "Annotations of a program are resolved where they are written", "statement": "For every program text that the parser accepts, the annotations that are stored for functions, variables, constants, statements and calls are those that are written there, in this order and with these values. The program is accepted if and only if every annotation is known, allowed at its place and has fitting arguments; otherwise the first annotation that is wrong is reported, with what is wrong about it. Nothing throws.", "quantifier": "every program text that is accepted by the parser", "why_tests_cant": "all programs with any number of annotations at any place", "anchors": ["src/bms/analyze_annotations.cpp", "src/bms/ast.cpp:395-401", "src/bms/parsing/parse.cpp"]}
{"id": "C64", "title": "Every text that is written with tokens is read as these tokens", "statement": "For every sequence of tokens and every text in which they are written one after the other, with any whitespace between them and so that no token can be read longer, tokenization succeeds and returns exactly these tokens in this order; a text is written with one sequence of tokens only.", "quantifier": "every text and every sequence of tokens", "why_tests_cant": "all texts; that nothing valid is refused is a statement about all lengths and all combinations of adjacent tokens", "anchors": ["src/bms/tokenization/tokenize.cpp"]}
{"id": "C65", "title": "Programs written by the BMS generator are the programs that were given", "statement": "For every program, the text that the BMS code generator writes is a valid BMS program: it is tokenized and parsed, and parsing it gives the same declarations, statements, types, expressions, operators, names and literals in the same nesting, whatever the options for indentation, braces and parentheses. So two different programs are never written the same way.", "quantifier": "every program and every combination of code options", "why_tests_cant": "all programs of all sizes and nestings, and all combinations of operators that need parentheses", "anchors": ["src/bmd/codegen/codegen_bms.cpp", "src/bmd/codegen/generator_base.hpp", "src/bms/expression_type.hpp"]}
{"id": "C66", "title": "The page of a document shows the document", "statement": "If nothing is wrong with a BMD document, the HTML page made from it consists of the document's paragraphs, headings, texts, directives, attributes, links and code, in the order and nesting in which they were written, in a page with the given stylesheets; text is escaped, and white space is added or left out only where it does not matter. If something is wrong with the document, an error is reported that says what is wrong first, and where.", "quantifier": "every document text and all options", "why_tests_cant": "all documents of all sizes and nestings", "anchors": ["src/bmd/html/doc_to_html.cpp", "src/bmd/html/bms_to_html.cpp", "src/bmd/html/html_writer.cpp"]}
{"id": "C67", "title": "Code in a document is shown as it was written", "statement": "For every program in a code block, the text that the page shows is the program, character by character, apart from white space at its beginning and end; every token is in an element for the category to which its text belongs.", "quantifier": "every program text", "why_tests_cant": "all programs and all layouts of their tokens", "anchors": ["src/bmd/html/bms_to_html.cpp", "src/bmd/html/html_writer.cpp:258-282", "src/bmd/codegen/code_span_type.hpp"]}
{"id": "C68", "title": "Integers are written as decimal numbers", "statement": "The text made from an integer of 128 bits is the decimal numeral of this integer, with a minus sign if it is negative; so different integers have different texts.", "quantifier": "every integer of 128 bits", "why_tests_cant": "2^128 values", "anchors": ["src/common/diagnostics.cpp:30-42", "src/common/to_string.hpp"]}
{"id": "C69", "title": "Expressions in generated C code have the meaning they had", "statement": "For every expression, the text that the C and C++ generator writes is one expression of the C grammar: the same operations on the same operands, grouped as they were in the program, with constants replaced by their values. It can be read in no other way.", "quantifier": "every expression, all constants and every combination of code options", "why_tests_cant": "all expressions of all sizes, with all combinations of operators that need parentheses, and all pairs of adjacent tokens", "anchors": ["src/bmd/codegen/codegen_c_cpp.cpp:20-116", "src/bmd/codegen/codegen_c_cpp.cpp:552-680", "src/bmd/codegen/generator_base.hpp:116-135"]}
{"id": "C70", "title": "Generated C code is the program that was given", "statement": "For every program, the text that the C and C++ generator writes is a C program with the same functions, parameters, statements and declarations, in the same order and nesting, where assertions, and constants unless they are declared by constexpr, are left out. It can be read in no other way.", "quantifier": "every program, both languages and every combination of code options", "why_tests_cant": "all programs of all sizes and nestings", "anchors": ["src/bmd/codegen/codegen_c_cpp.cpp", "src/bmd/codegen/generator_base.hpp"]}
{"id": "C71", "title": "C code is generated for every program whose types exist in C", "statement": "For an analyzed program, the C and C++ generator reports an error if and only if a type that it has to write has no name in the language, and this is the only error; otherwise it writes a program, and it never throws.", "quantifier": "every analyzed program, both languages and every combination of code options", "why_tests_cant": "all programs; that nothing throws is a statement about all states that analysis can leave", "anchors": ["src/bmd/codegen/codegen_c_cpp.cpp:218-281", "src/bmd/codegen/codegen_c_cpp.cpp:299-316", "src/bmd/codegen/generator_error.hpp"]}
{"id": "C72", "title": "Generated C code computes what the program computes", "statement": "For every program and every call of one of its functions that has a result, the call of this function in the C program that is generated has the same result.", "quantifier": "every analyzed program without types that C lacks, every function, all arguments and all numbers of loop iterations and nested calls", "why_tests_cant": "all programs, all executions of them, and all arguments; C promotes small types and leaves operations undefined that BMS defines", "anchors": ["src/bmd/codegen/codegen_c_cpp.cpp", "src/bms/evaluation/concrete_value.hpp"]}
{"id": "C73", "title": "Errors of the tokenizer are reported where they are", "statement": "For every text that is not tokenized, print_tokenize_error succeeds, and what is seen is the file, the number of the line and the column of the error, a message that only this error has, the line of the text that contains the error and a mark below the column; without escape sequences if colours are turned off.", "quantifier": "every text with an error, every file name, with and without colours", "why_tests_cant": "all texts and all places of errors; samples miss errors without a message and places where lines are counted wrongly", "anchors": ["src/common/diagnostics.cpp:93-105", "src/common/diagnostics.cpp:604-682"]}
{"id": "C74", "title": "Errors of the parser are reported where they are", "statement": "For every text that is tokenized but not parsed, print_parse_error succeeds, and what is seen is the place of the token that is blamed, its kind, the rule, the line that contains the token, and the tokens that were expected, which do not include the one that is blamed.", "quantifier": "every text with an error of the parser, every file name, with and without colours", "why_tests_cant": "all texts, all rules and all places of errors", "anchors": ["src/common/diagnostics.cpp:684-713", "src/bms/parsing/parse.cpp"]}
{"id": "C75", "title": "Errors in documents are reported where they are", "statement": "For every document that is not parsed, print_parse_error succeeds, and what is seen is the place of the error, a message that only this error has, with the character and the rule if it is about a character, and the line of the document that contains the error.", "quantifier": "every document with an error of the parser, every file name, with and without colours", "why_tests_cant": "all documents and all places of errors; errors at the end and at line feeds are special cases", "anchors": ["src/common/diagnostics.cpp:269-300", "src/common/diagnostics.cpp:715-737", "src/bmd/parsing/parse.cpp"]}
{"id": "C76", "title": "Errors of the conversion of documents are reported where they are", "statement": "For every parsed document that is not converted to HTML, the error is at a character of the document, print_document_error succeeds, and what is seen is the place of the error, a message that only this error has, and the line of the document that contains the error.", "quantifier": "every parsed document whose conversion fails, all options, every file name, with and without colours", "why_tests_cant": "all documents, and that places in trees are places in texts is a statement about all trees that the parser makes", "anchors": ["src/common/diagnostics.cpp:302-325", "src/common/diagnostics.cpp:748-762", "src/bmd/html/doc_to_html.cpp"]}
{"id": "C77", "title": "What is generated is what is shown", "statement": "For every code string with ordered spans, print_code_string succeeds; a terminal shows exactly its text, each character in the colour of its span, and the colour is reset at the end. A page is shown on a terminal as the text that is written to a file, and file_to_string returns the whole content of a file.", "quantifier": "all code strings and all sequences of editing operations, all pages, files of every size", "why_tests_cant": "all texts, all lists of spans, and all lengths of files; blocks of a file end at places that samples do not reach", "anchors": ["src/cli/glue.cpp:110-190", "src/common/io.cpp"]}
{"id": "C78", "title": "Nodes are at the tokens that introduce them", "statement": "For every parsed program, each node of the tree is at the span of a token of the program, and this token introduces the node: the keyword of a statement or declaration, the operator of an expression, the name that the node has, or the first part of something that has no token of its own. Each node has as many children as its kind calls for.", "quantifier": "every text that is parsed, all nodes of its tree", "why_tests_cant": "all texts and all trees; errors of analysis are reported at these places", "anchors": ["src/bms/parsing/parse.cpp", "src/bms/parsing/astp.hpp"]}
{"id": "C79", "title": "Dumps show every token and every node", "statement": "For every text that is tokenized, dumping its tokens shows each in order with its place, type and text. For every text that is parsed, dumping its tree shows each node exactly once, in preorder, with its depth, handle, role, kind and text; dumping the tree of a document shows the text of each node in one line, cut off when it is too long. Without colours there are no escape sequences.", "quantifier": "every text that is tokenized or parsed, every width of indentation, with and without colours, texts of any length", "why_tests_cant": "all texts and all trees; kinds of nodes with too few names for their children lead to undefined behaviour only for some programs", "anchors": ["src/common/diagnostics.cpp:804-990", "src/bms/parsing/astp.hpp", "src/bms/util.cpp:9-74"]}
{"id": "C80", "title": "Programs that follow the rules are accepted", "statement": "A program whose names are found and whose declarations follow the typing rules - operands, arguments, conditions, initial and returned values have types that fit, constants and static assertions can be computed from what is declared before, variables are assigned after their declaration, break and continue are in loops - is not rejected by analyze; if its analysis also neither throws nor has undefined behaviour (calm programs), it is accepted.", "quantifier": "every program with functions that are not generic, that do not call themselves, and constant expressions without calls; calls of functions that are declared later and of each other are covered", "why_tests_cant": "all programs; that no rule is missing in the rules is a statement about all programs that follow them", "anchors": ["src/bms/analyze.cpp:89-1127", "src/bms/analyze.hpp"]}
{"id": "C81", "title": "Reports of analysis errors say what went wrong where", "statement": "For every error that analyze makes, print_analysis_error succeeds; what is seen begins with the place of the node at which analysis failed, a message that only this kind of error has, and the line of the program that contains it. Notes follow that quote the cause, say what went wrong in an evaluation, which values a comparison in a false static assertion has, and which type or values an argument should have.", "quantifier": "every call of Analysis_Error_Builder in analyze, every parsed text, every file name, with and without colours", "why_tests_cant": "all programs and all ways in which they are rejected; which members of an error are set differs between the places that make errors", "anchors": ["src/common/diagnostics.cpp:330-602", "src/common/diagnostics.cpp:640-746", "src/bms/analyze.cpp", "src/bms/analysis_error.hpp"]}
{"id": "C82", "title": "Code is generated for accepted programs", "statement": "For every text that is accepted, generating C or C++ code gives code, or an error that an integer type in it has a width for which the language has no type; it has no undefined behaviour and throws nothing. BMS code is always generated and is the same as that of the program before analysis. A language that can be named on the command line can be generated.", "quantifier": "every text, every option of the generators, every program for which analyze succeeds", "why_tests_cant": "all programs; what the generators read is set by analysis in many places, and whether a place is missed depends on the program", "anchors": ["src/bmd/codegen/codegen.cpp:6-52", "src/bmd/codegen/codegen_c_cpp.cpp", "src/bmd/codegen/codegen_bms.cpp", "src/bms/analyze.cpp:1102-1127", "src/cli/glue.cpp:70-109"]}
{"id": "C83", "title": "The command line says what the library does", "statement": "verify ends with status 0 and 'All checks passed.' exactly if the file can be read and its program is accepted; generate exactly if code can be generated for it, and then it shows exactly this code; dump_tokens and dump_ast exactly if there are tokens and a tree; html exactly if the document is converted, and then the page is shown or it is what the output file contains. Otherwise the status is 1, no output file contains a page, and the error is reported with its place.", "quantifier": "all command lines, all contents of files, all ways in which files cannot be opened", "why_tests_cant": "all files and all arguments; that two commands agree about a file is a statement about all files", "anchors": ["src/cli/main.cpp", "src/cli/compile.cpp", "src/cli/glue.cpp:140-165", "src/common/diagnostics.cpp:797-802"]}
{"id": "C84", "title": "Variants and results hold what was put into them", "statement": "Whatever a program does with variables of a Variant or Result type - construct, copy, move, assign, destroy, also when copies throw - there is no undefined behaviour; each variable holds the alternative and value that a plain sum type would hold, index, get, get_if, holds_alternative, visit, has_value, value, error and == agree with it, a copy assignment to another alternative that throws changes nothing, and every object that was made is destroyed exactly once.", "quantifier": "all sequences of operations on any number of variables, all lists of types, all ways in which copies throw, self-assignments included", "why_tests_cant": "all sequences of operations; lifetimes of objects in raw storage cannot be seen by tests that do not count objects, and undefined behaviour often goes unnoticed", "anchors": ["src/common/variant.hpp", "src/common/result.hpp", "src/common/packs.hpp"]}
{"id": "C85", "title": "What analysis rejects breaks the rule that is named", "statement": "If analyze fails with an error, the program breaks the rule that the code of the error stands for, at the node that the error names: a conversion, argument, initializer, assigned or returned value has a type that does not fit, an operator is not for the types of its operands, a condition is no Bool, a call has the wrong number of arguments, a constant expression uses a variable or parameter, a constant or a parameter is assigned, break and continue are outside of loops, and so on. For an error in an instance of a generic function, the rule is broken by the generic function. A program that breaks no rule is not rejected.", "quantifier": "every program and every text, also with generic functions, recursion and calls in constant expressions", "why_tests_cant": "all programs that are rejected; errors are made at about fifty places, and that no other program reaches them is a statement about all programs", "anchors": ["src/bms/analyze.cpp:89-1127", "src/bms/analysis_error.hpp", "src/bms/vm/codegen.cpp:478-498"]}
{"id": "C86", "title": "Layout and comments do not change what a program means", "statement": "If two texts are written with the same tokens, and differ only in the space between them and in comments, both are rejected by tokenizer or parser, with the same rule and the same expected tokens at the same token, or both are made into the same tree, and analysis accepts both with the same values, types, instances and code, or rejects both with the same error.", "quantifier": "all pairs of texts with the same tokens, every depth of analysis", "why_tests_cant": "all texts and all layouts; the parser looks ahead over comments in several places and takes a look at the next tokens to choose between rules", "anchors": ["src/bms/parsing/parse.cpp:395-542", "src/bms/parsing/parse.cpp:1324-1349", "src/bms/tokenization/tokenize.cpp", "src/bms/ast.cpp:374-498", "src/cli/compile.cpp:15-80"]}
{"id": "C87", "title": "What a person reads about a rejected program is true", "statement": "If verify or generate is used with a program that analysis rejects, then what is shown on the terminal begins with a message, a place and a line of the program; the place is that of a token that introduces a part of the program, the message is the one of the error and of no other error, and the program is wrong at this part in the way that the error says: a name is used that is not visible or declared that is visible already, or a rule about types, constants or control is broken. The status is 1.", "quantifier": "every text that analysis rejects, also in instances of generic functions, every name of a file", "why_tests_cant": "all rejected programs; the place passes from tokens through the parser, the tree, copies of generic functions and about sixty places that make errors to the report", "anchors": ["src/cli/compile.cpp:15-80", "src/bms/analyze.cpp:89-1127", "src/bms/analyze_name_lookup.cpp:60-300", "src/bms/ast.cpp:374-498", "src/common/diagnostics.cpp:454-600", "src/common/diagnostics.cpp:739-746"]}
{"id": "C88", "title": "A virtual machine that was reset behaves as a new one", "statement": "After any sequence of calls of its member functions - instructions added, values pushed and popped, cycles that succeed, fail or throw, inside or outside of calls - a machine that is reset answers every further sequence of calls as a new machine with the same instructions does, and a machine that is cleared as a new one without instructions: the same values, sizes, addresses, errors, comparisons named by errors, and exceptions.", "quantifier": "all sequences of calls before and after, all programs, ending or not", "why_tests_cant": "all pasts of a machine and all programs; analysis executes every constant expression on the same machine", "anchors": ["src/bms/vm/vm.hpp:36-110", "src/bms/vm/vm.cpp:17-220", "src/bms/analyze.cpp:915-970"]}
{"id": "C89", "title": "The order of functions does not matter", "statement": "Functions may be used before they are declared: names are resolved to the same declarations in whatever order the global declarations are, and if a program is accepted, it is also accepted if its functions are written in another order, as long as no function is moved in front of a constant that it could use.", "quantifier": "all programs, all ways to reorder their functions", "why_tests_cant": "all programs and all orders; what is analyzed when depends on the first use of each function", "anchors": ["src/bms/analyze_name_lookup.cpp:43-134", "src/bms/analyze.cpp:89-200", "src/bms/analyze.cpp:780-960"]}
{"id": "C90", "title": "Generated BMS code is accepted again, and only what is written matters", "statement": "Whether a program is accepted does not depend on where its nodes are in memory or in which order the parser made them: if two texts give the same declarations with the same parts, names are resolved in the same way in both, and both are accepted or none is. In particular, the BMS code that is generated for an accepted program is accepted itself and is the same program, and a text in which functions were moved towards the end is accepted if the original one is.", "quantifier": "all pairs of texts that stand for the same program, all options of the generator", "why_tests_cant": "all programs and all texts for them; analysis keeps values and types in maps whose keys are addresses", "anchors": ["src/bms/analyze_name_lookup.cpp:43-134", "src/bms/analyze.cpp:89-200", "src/bmd/codegen/codegen_bms.cpp", "src/bms/ast.cpp:374-498", "src/cli/compile.cpp:15-80"]}
{"id": "C91", "title": "The verdict on a program depends only on what is written", "statement": "If two texts give the same declarations with the same parts, then analysis of both has the same result, whether they are accepted or not and also with generic functions: both are accepted with the same values and types of the same nodes, the same signatures, instances and levels of functions and the same code apart from the names of variables; or both are rejected with the same error at the same node of the program; or analysis of both throws or does not end. This holds for texts that differ in layout, comments, parentheses and annotations, and for the BMS code that is generated for a program.", "quantifier": "all pairs of texts that stand for the same program, every depth of analysis, all addresses of nodes", "why_tests_cant": "all programs and all texts for them; addresses of nodes are keys of maps, variables of the virtual machine and arguments of instructions", "anchors": ["src/bms/analyze.cpp:89-1127", "src/bms/vm/codegen.cpp", "src/bms/vm/vm.cpp:17-220", "src/bms/ast.cpp:374-498", "src/bmd/codegen/codegen_bms.cpp", "src/cli/compile.cpp:15-80"]}
{"id": "C92", "title": "Texts of the same program give the same code in other languages", "statement": "If two texts give the same declarations with the same parts and one of them is accepted, then the other one is too, and the code that is generated for both is the same, in every language and with all options; the generate command shows the same for both files and ends in the same way. In particular it makes no difference whether code is generated from a program or from the BMS code that was generated for it, and generating BMS code twice is the same as once.", "quantifier": "all pairs of texts that stand for the same program, all languages, all options of generators, every depth of analysis", "why_tests_cant": "all programs and all texts for them; generators read values that analysis left in nodes, and follow addresses to constants", "anchors": ["src/bmd/codegen/codegen_c_cpp.cpp:299-712", "src/bmd/codegen/codegen_bms.cpp", "src/bmd/codegen/codegen.cpp:36-52", "src/bms/analyze.cpp:89-1127", "src/cli/main.cpp:131-162"]}
{"id": "C93", "title": "The dump of a program tells its instructions", "statement": "If the dumps of two programs for the virtual machine are the same text, then the programs have the same instructions at the same places: the same variables, targets of jumps, types, operators and values. A dump has one line per instruction.", "quantifier": "all pairs of programs for the virtual machine, all names in debug information without line breaks, all ways to write addresses that differ and have no spaces", "why_tests_cant": "all pairs of programs of any length; columns are padded for some instructions and not for others, and numbers are of unbounded length", "anchors": ["src/bms/vm/instructions.cpp:12-133", "src/bms/analyze.cpp:184-196"]}
