# Formal model of Eisenwave/bit-manipulation (BMS / BMD) in Lean 4

## What is verified, and how

`/verif/lean/Verif` holds a functional model of the C++ sources in `/repo/src`,
written function by function, and theorems about it. Every model definition
carries a comment with the C++ file and lines it transcribes and says where it
simplifies. Specifications (what a result *should* be) are written separately,
in plain arithmetic / list / set terms, in `Verif/Spec*.lean` or at the head of the
property file; they never call model helpers.

### Outcomes

C++ behaviour is modelled by `Outcome ε α`:

* `ok a`     normal return,
* `err e`    a reported error (`Result` error / diagnostic),
* `throws`   `BIT_MANIPULATION_ASSERT` / `ASSERT_UNREACHABLE` failure, which throws
             `Assertion_Error` (these checks are always compiled in), or a standard
             library exception (`vector::at`, `map::at`),
* `ub`       undefined behaviour (signed 128-bit overflow, `INT128_MIN / -1`, shift by
             128 or more, null dereference, out-of-bounds read).

Undefined behaviour is thus an outcome that theorems must exclude, not an assumption.
Loops whose termination is not obvious carry fuel or are given as relations; where a
C++ loop does not terminate this is stated as a theorem about every fuel.

### Numbers

`Big_Int`/`Big_Uint` are `__int128`/`unsigned __int128` (src/common/config.hpp:60-70).
`Big_Int` is modelled by `Int` with the invariant `-2^127 <= v < 2^127` (an operation
whose exact result leaves this range is `ub`); `Big_Uint` by `Nat < 2^128` with
wrap-around written out as `% 2^128`; the casts between them are `toU128`, `toI128`.
`Size` arithmetic is modelled by `Nat` (64-bit overflow of sizes is not modelled).
Strings are `List Char` restricted in no way: C++ `char` comparisons against ASCII
literals are the same comparisons.

## Trusted base

* Lean 4.33.0 kernel; axioms used: at most `propext`, `Classical.choice`,
  `Quot.sound` (printed for each property theorem by `Verif/Audit.lean`).
  No own axioms, no `sorry`, no `native_decide`, no `bv_decide`.
* The transcription of C++ into Lean (by hand, cited line by line).
* The C++ implementation: that asserts throw, that `std::pmr` containers and `string_view`
  behave as documented; two's complement casts (C++20). The other models use `Result` and `Variant`
  as plain sum types; C84 shows that they are.
* For C69-C72, the definitions of C: tokens and grammar (Spec/CLang) and what programs compute
  (Spec/CSem), written down from the C standard for 32-bit `int` and 64-bit `long`.
* Not modelled: memory exhaustion, allocation, 64-bit size overflow. Input and output: files are
  read and written as a whole, or cannot be opened (Model/Cli).

## Plan per property

| id | model | proof |
|----|-------|-------|
| C01-C09 | types, values, `convert_to`, `check_*`, `evaluate_*` on concrete values (Verif/Model/Values, Operations) | direct arithmetic, case analysis on the operator |
| C10 | same | case analysis; Bool `==`/`!=` is accepted by the checker but throws, so a negation witness plus `_partial` |
| C11 | same | case analysis over operators, invariants of `%` and bit operations |
| C12 | `Value` level functions | case analysis; unknown Uint operand of `<< >> / %` with known constant throws: witness plus `_partial` |
| C13, C14 | builtin / if functions | case analysis |
| C15, C16 | `parse_uinteger_digits`, `match_digits`, ... | induction over the digit list; wrong overflow check and upper case hex give witnesses plus `_partial` |
| C17, C18 | `match_*` | induction over the text |
| C19-C22 | tokenizer loop | loop invariant by induction on the remaining text; `&&`, `!` lengths and block comment at end of file give witnesses plus `_partial` |
| C64 | same; texts written with tokens (Spec/Spelled) | induction over the tokens; maximal munch for each kind of token |
| C65 | Model/GenBms; printable programs (Spec/GenBms) | induction over the tree: the text is written with tokens that the grammar derives; then C64, C51 and C60 |
| C66 | Model/DocHtml; items of a page, how they are written, faults of a document (Spec/DocHtml) | induction over the tree, with an invariant of the writer; every tree of the parser is sane (from C61); depth of the writer (C38) for elements that are closed without having been opened |
| C67 | same; items of code | induction over the tokens, with their positions |
| C68 | Model/ToString; decimal literals (Spec/Literal, Spec/ToString) | strong induction over the number |
| C69 | Model/GenC; tokens and grammar of C (Spec/CLang), which C expression stands for an expression (Spec/GenC) | induction over the expression, with what may follow a text; the grammar of expressions is unambiguous |
| C70 | same, statements and declarations | induction over the tree; the grammar of statements and programs is unambiguous |
| C71 | same; types that have names (Spec/GenC) | induction over the tree |
| C72 | what C programs compute (Spec/CSem), reference semantics (Spec/Source), the fragment `SameProgram` | simulation: induction over typed expressions and statements, on the fuel of loops, and on the depth of calls |
| C73 | Model/Diagnostics; what is on the screen, lines of a text and what a report contains (Spec/Diagnostics) | lines around an index, tables of messages |
| C74 | same, with the tokens that were expected; where parse errors are (Lemmas/ParseBlame) | induction over the rules of the parser: errors blame a token of the text or come from its end |
| C75 | same, with the positions of Spec/Bmd | C61 with which errors are at characters |
| C76 | same; places of nodes (Spec/DocErrors) | induction over the document: every node begins at a character |
| C77 | Model/Output; a terminal that understands escape sequences (Spec/Terminal) | induction over spans, tokens and blocks of a file |
| C78 | Spec/Places, a table of the tokens that introduce nodes; `Places` over parser programs (Lemmas/ParsePlaces) | induction over the rules of the parser, with the nodes that were made so far |
| C79 | Model/Dump; lines of tokens and preorder of trees (Spec/Dump, Spec/DocDump) | induction over tokens and over the depth of trees; counting with C52; for documents, the spans of nodes lie in each other (Lemmas/DocSpans), so that the text of every node is in the source |
| C80 | Spec/WellTyped, typing rules with assumed values of constants and types of variables; `Safe` over analysis programs (Lemmas/AnalyzeTyped…) | induction over expressions and statements, with the signatures that were analyzed so far |
| C81 | Model/AnalysisReport, one constructor of `Site` for each place that makes an error; what a report contains (Spec/AnalysisReport) | cases over the places, lemmas about single lines, tables of messages |
| C82 | Model/Generate: what generators see of the result of analysis; Model/GenC and Model/GenBms | the invariant of C54 gives what C71 assumes; erasure of annotations of analysis (`plainD`) for BMS code; every parsed tree has blocks where they are needed |
| C83 | Model/Cli: the commands of the program, for any world of files; errors of analysis are made at any place that `FailsAt` allows | each command is a chain of steps that end the program or go on; C66, C73 to C77, C79, C81 and C82 say what each step gives |
| C84 | Model/Variant, Model/Result: storage in which an object is alive or none, with counts of objects that were made and destroyed; Spec/Sum: variables of a plain sum type | simulation: each operation keeps that the storage holds the object of the alternative, and that made - destroyed is the number of variables that hold a type |
| C85 | Model/Analyze; Spec/Blame: rules that programs break, by nodes of the program after name lookup | an invariant of the state (each function is a copy of a function of the program, keys of nodes are equal modulo the number of keys, types that are known are those that declarations give) kept by every step, with errors as broken rules |
| C86 | Model/Compile; Spec/Grammar `lexemes`, Spec/Spelled | the parser on tokens without comments (C42), and a relation between runs on tokens that are equal but for their places, kept by every operation and rule; the tree is built from kinds and children only |
| C87 | Model/Compile, Model/Cli, Model/AnalysisReport; Spec/Scopes, Spec/Blame, Spec/Places, Spec/AnalysisReport | keys with what is at them (`Lemmas/Placed`): kept by name lookup, taken from the nodes of the parser, named by every wrong item and every broken rule together with a place that makes the error; then C35, C85, C78 and C81 |
| C88 | Model/Vm; calls of member functions and their answers, in Props/Machine | two machines that differ at most in the comparison: one call answers the same and keeps this; induction over the calls |
| C89 | Model/NameLookup, Model/Analyze; Spec/WellTyped, Spec/Calm | tables of symbols that give the same answers (induction over the tree); rules that hold remain so if more is declared before; one function and the declaration behind it change places; then C80 |
| C90 | Model/NameLookup, Model/Compile, Model/GenBms; Spec/WellTyped, Spec/Calm | trees of texts that are written in the same way differ by an injective renaming of addresses (Lemmas/RenumberPlain, RenumberNew); name lookup and the rules commute with such renamings (Lemmas/Renumber, RenumberTyped); then C60, C65, C80, C89 |
| C91 | Model/Analyze, Model/Instantiate, Model/Codegen, Model/Vm, Model/Compile | all of analysis, with code generation, the virtual machine and copies of generic functions, commutes with injective renamings of addresses that keep the sentinel and move the addresses of copies along (Lemmas/RenumberVm, RenumberGen, RenumberInst, RenumberAna); for two trees that are written in the same way there is such a renaming (Lemmas/RenumberBoth); then C60, C65 |
| C92 | Model/GenC, Model/GenBms, Model/Generate, Model/Cli, Model/Compile | generators read addresses only to find constants, so that they commute with renamings (Lemmas/RenumberC); then C91, C83 |
| C93 | Model/DumpCode, Model/Codegen | the first six characters of a line tell the kind of the instruction; for each kind what follows is injective; lines have no line break. For generated code: induction over the tree (Lemmas/DumpGen) |
| C23 | Tribool on its `signed char` encoding | complete finite tables |
| C24 | precedence tables | complete finite tables |
| C25 | Linear_Map_Stack on a list of entries | refinement to a list of maps |
| C26, C27 | VM step function | case analysis, induction over executions |
| C28-C32 | code generator and VM | structural induction, simulation of a big-step reference semantics |
| C33 | code generator | negation witness (no conversion on store) and `_partial` for programs where initializers already have the declared type |
| C34, C35 | symbol table, name lookup | invariants, structural induction |
| C36 | annotation parameter matcher (Model/Annotations), table of annotations (Spec/Annotations) | invariant over the argument list; `@inline` is not recognized: witness plus `_partial` |
| C63 | same, with the parser of C42 | induction over syntax trees: what the traversal of the nodes finds is the list of places of the tree |
| C37, C38 | HTML writer | induction over text; invariant over call sequences |
| C39 | Code_String | invariant over call sequences |
| C40, C41 | BMD parser (Model/Bmd), balanced text (Spec/Bmd) | induction; both are false: general violations plus `_partial`; for C41 a bound on the number of steps, and a condition on the text that carries over to the text of blocks |
| C61 | same; relation between texts and trees (Spec/Bmd) | induction over the number of steps, with soundness of every function of the parser |
| C61, C62: tables | names of directives and where they may be (Spec/BmdNames) | complete finite tables; induction over the tree |
| C62 | same | completeness of every function by induction over the number of steps; uniqueness of blanks, texts, identifiers, literals and balanced text |
| C42, C43 | BMS parser as a program over tokens (Model/Parse), grammar as a derivation relation (Spec/Grammar) | induction over the program for comments and termination, over fuel for soundness; the grammar of the parser is larger than grammar.ebnf: witnesses plus `_partial` |
| C51 | same | induction over derivations; the lookahead for comparison operators is wrong for some programs: witnesses plus `_partial` |
| C52, C53 | same | ownership invariant over handles |
| C44 | operator tables | complete finite tables; `>=` is missing: witness plus `_partial` |
| C45 | instance table | invariant over request histories |
| C46 | tokenizer loop | case analysis of the alternatives |
| C47 | VM | invariant over executions; stale comparison witness plus `_partial` |
| C49, C50 | HTML writer | attribute reader as a state machine, invariant over call sequences |
| C54, C55, C56 | analysis of types | invariant over the state of analysis, by induction over fuel and syntax trees |
| C57 | same | agreement with the reference semantics, by induction over constant expressions |
| C58 | same | false: witnesses, by induction over the number of steps; plus `_partial` for programs without calls in constant expressions, where a depth of three calls is enough, and for programs whose constant expressions only call functions without loops that return (Spec/Finite, Lemmas/Finite*): the code of such functions only jumps forwards and calls functions of lower addresses, so a rank of machine states decreases (Lemmas/VmRank) |
| C59 | same; calm programs (Spec/Calm) | false: witnesses; for calm programs induction over the tree, with a weaker invariant that needs no binding of names (`_partial`) |
| C60 | construction of the tree (Model/Build), relation between syntax trees and trees (Spec/Build) | induction over derivations of the grammar; false for `>=`: general violation plus `_partial` |
| C48 | constant calls | from C31 and type soundness of the reference semantics |

## How compiled programs are verified (C28 to C33, C48)

1. `Spec/Source.lean`: what a program means, as a big-step interpreter on the syntax tree that knows
   nothing about instructions. `Spec/Static.lean`: which trees are well-typed.
2. `Lemmas/Source.lean`: well-typed programs keep types and do not get stuck.
3. `Model/Codegen.lean` transcribes the code generator; `Lemmas/Codegen.lean` shows that its output is
   a function of the tree (`exprC`, `stmtC`), independent of the position.
4. `Lemmas/Sim*.lean`: the code of every expression, statement, function and program follows the
   reference semantics, on configurations; `Lemmas/CodeOk.lean`: generated code is well-formed;
   `Lemmas/Run.lean`: from configurations to cycles of the transcribed machine (using C26).
5. `Props/Compile.lean` puts this together; `Props/CompileCases.lean` has a program that meets all
   hypotheses, and the programs for which the code does not do what the source says.

## How analysis is verified (C54 to C59)

1. `Model/Analyze.lean` transcribes analysis as a function on a state: declarations and functions by
   key, code of the machine, stack of functions. Results are values, errors, exceptions, undefined
   behavior or `timeout` (more steps than the given bound).
2. `Lemmas/AnalyzeState.lean` has the invariant `Inv`; `AnalyzeExpr`, `AnalyzeStmt`, `AnalyzeSig`,
   `AnalyzeDone`, `AnalyzeCompile`, `AnalyzeInst` and `AnalyzeFn` show that it is kept;
   `AnalyzeVals` and `AnalyzeStmtVals` relate values in constant expressions to the reference semantics of
   every program that analysis may still end with (`Finally`),
   `AnalyzeNames` and `AnalyzeProgram` that it holds in the beginning.
3. `Lemmas/AnalyzeShape.lean` has what stays the same during analysis.
4. `Props/Analysis.lean` and `Props/AnalysisValues.lean` put this together; `Props/AnalysisCases.lean` has
   programs that meet the hypotheses, and programs for which the properties are violated.
   `Lemmas/AnalyzeFuel.lean` shows that the bound on steps does not influence the result if it is large
   enough, `Lemmas/AnalyzeEnds.lean` that three is large enough for the programs of `Spec/Ends.lean`.
   `Spec/Calm.lean` describes programs without the constructs that are known to throw or read what is not there;
   `Lemmas/AnalyzeCalm.lean` (constant expressions), `AnalyzeCalmFn` (expressions) and `AnalyzeCalmStmt`
   (statements and functions) show that analysis of these accepts or reports an error.
   `Spec/WellTyped.lean` has the typing rules, given the values of constants and the types of variables;
   `Lemmas/AnalyzeTyped.lean`, `AnalyzeTypedFn` and `AnalyzeTypedStmt` show that programs that follow them are
   not rejected.
5. `Model/Build.lean` makes the tree from the nodes of the parser; `Lemmas/Build.lean` shows that it stands
   for a syntax tree of the grammar, `Lemmas/BuildThrows.lean` when it cannot be made. `Model/Compile.lean`
   runs everything on a text, and `Props/Build.lean` has the properties of the whole.

## Parts of the code that are modelled

| source | model |
|--------|-------|
| bms/concrete_type.hpp, concrete_value.hpp, value.hpp, expression_type.* | Model/Values, Model/ExprType |
| bms/evaluation/operations.cpp, builtin_function.* | Model/Operations |
| bms/tokenization/*, token tables of bms/util.cpp, bms/ast.cpp | Model/Tokenize, Model/TokenTables |
| common/tribool.hpp | Model/Tribool |
| bms/vm/linear_map_stack.hpp (as used by the VM) | Model/MapStack |
| bms/vm/vm.*, instructions.hpp | Model/Vm |
| bms/vm/instructions.cpp (how addresses are written is a parameter) | Model/DumpCode |
| bms/ast.hpp (types of nodes needed by code generation), bms/vm/codegen.cpp | Model/Ast, Model/Codegen |
| bms/analyze.cpp:184-195, 913-966 (code of a function, constant calls) | Model/ConstEval |
| bmd/html/html_writer.* | Model/Html |
| bmd/codegen/code_string.hpp, `Scoped_Attempt` of generator_base.hpp | Model/CodeString |
| bms/parsing/parse.cpp, astp.hpp | Model/Parse |
| bms/ast.hpp (everything that analysis reads or writes, without annotations) | Model/Tree |
| bms/ast.cpp:17-60, 290-560 (tree from the nodes of the parser, without annotations) | Model/Build |
| cli/compile.cpp:15-80, bms/analyze.cpp:1116-1127 (order of the phases) | Model/Compile |
| bms/symbol_table.hpp, analyze_name_lookup.cpp | Model/NameLookup |
| bms/instantiate.cpp, deduction.hpp, `copy` of ast.cpp | Model/Instantiate |
| bms/analyze.cpp | Model/Analyze |
| bms/analyze_annotations.cpp (without the verifier in `#if 0`), annotation names of bms/util.cpp | Model/Annotations |
| bmd/parsing/parse.cpp, ast.hpp, bmd/enums.cpp:20-197 (parser of documents) | Model/Bmd |
| bmd/codegen/codegen_bms.cpp, the parts of generator_base.hpp it uses (text only) | Model/GenBms |
| bmd/html/doc_to_html.cpp, bmd/html/bms_to_html.cpp, bmd/codegen/code_span_type.hpp | Model/DocHtml |
| common/diagnostics.cpp:30-42 (`to_string`) | Model/ToString |
| bmd/codegen/codegen_c_cpp.cpp, the parts of generator_base.hpp it uses (text only) | Model/GenC |
| common/diagnostics.cpp:90-105, 269-325, 604-762 (reports of errors of the tokenizer, parsers and conversion of documents), names in bms/util.cpp | Model/Diagnostics |
| bmd/codegen/codegen.cpp, bmd/codegen/code_language.hpp, cli/glue.cpp:70-109 (names of languages) | Model/Generate |
| cli/main.cpp, cli/compile.cpp, cli/glue.cpp:140-165 (commands; not: messages for exceptions, failures of standard output) | Model/Cli |
| common/variant.hpp, common/packs.hpp:21-29 | Model/Variant |
| common/result.hpp (without `transform`, which is never compiled) | Model/Result |
| common/diagnostics.cpp:330-602, 640-746 (reports of errors of analysis), bms/analysis_error.hpp, the calls of `Analysis_Error_Builder` in bms/analyze.cpp, analyze_annotations.cpp | Model/AnalysisReport |
| cli/glue.cpp:18-65, 110-190 (highlighting), common/io.cpp (reading files) | Model/Output |
| common/diagnostics.cpp:804-990 (dumps of tokens and trees), bms/util.cpp:9-74, names in bms/parsing/astp.hpp | Model/Dump |

## Findings

Each of these is a theorem: a concrete input for which the code does not have the property.

| theorem | what happens |
|---------|--------------|
| `C30_conditional_violation` | branches of `a if c else b` are not converted to the common type in generated code |
| `C33_violation` | `let x: Uint(8) = 255; x = x + 1;` leaves the Int 256 in `x`: stores do not convert |
| `C31_stale_violation` | `let x: Int;` in a loop does not make `x` uninitialized again |
| `C31_end_violation` | a function that ends with a loop fails if it is the last one: a conditional jump to the end of the program is rejected even if it is not taken |
| `C31_fallthrough_violation` | a function with result but without `return` on some path continues with the code of the next function |
| `C26_negative_jump` | a jump to before the program is not an error of the jump |
| `C47_stale_comparison` | an assertion failure can be reported with the comparison of an earlier assertion |
| `C44_greater_or_equal` | `>=` is parsed but has no expression type: building the tree throws |
| `C10_bool_equality_throws` | `==` and `!=` on two `Bool`s pass the type check and throw in evaluation |
| `C12_uint_known_divisor_throws` | folding an unknown `Uint` with a known right operand of `/ % << >>` throws |
| theorems at Props/Text.lean:225-250 | integer literals: wrong overflow check, digits of a larger base accepted |
| theorem at Props/Text.lean:619 | upper case hexadecimal digits are matched but have no value |
| `C20_wrong_length` | `a&&bc` is tokenized as `a`, `&&b`, `c` |
| theorem at Props/Tokens.lean:201 | line numbers are wrong after a line feed in a string literal |
| `C22_exceptions` | block comment at the end of the text, trailing `!`, trailing `&&`: exceptions |
| `C02_not_infinite_precision` | `Int` arithmetic overflows 128 bits (undefined behaviour) |
| `C38_block_attributes` | an opening tag with attributes and block-like style always throws |
| `C38_is_done_attributes`, `C38_is_done_initial`, `C50_done_without_preamble` | `is_done` is true for incomplete documents |
| `C37_ampersand` | `&` is not escaped: the texts `<` and `&lt;` look the same |
| `C49_quote`, `C49_tab`, `C49_slash` | attribute values are read differently than written |
| `C42_violated_comma`, `C42_violated_string` | `f(a b)` and `const x = "a";` are accepted |
| `C42_violated_chain` | `f(a - b - c)` is accepted as a call with the arguments `a - b` and `-c` |
| `C51_violated_argument`, `C51_violated_parentheses`, `C51_violated_else`, `C51_violated_type` | `f(a, b == c)`, `(a) && (b == c)`, `a if b else c == d` and `const x: Uint(8) = f(b == c);` are rejected |
| `C53_violated_annotation` | `@a(b) const x = 1;` makes the parser throw instead of reporting an error |
| `C39_resize_violation` | `Code_String::resize` accepts lengths that leave spans outside the text |
| `C34_shadowing_violation` | with shadowing enabled (which analysis never does), the outer declaration is found instead of the inner one |
| `C35_width_violation` | an unknown function called in the width of a parameter throws instead of being reported |
| `C45_global_violation` | a generic function that uses a global constant or calls another function cannot be instantiated: exception |
| `C45_null_violation` | a generic function with `if` without `else`, `break`, `return;`, `let` without type or initializer, `Int`, `Bool` or `Void` is undefined behaviour on instantiation |
| `C54_recursion_violation` | `function f(x: Int) -> Int requires true { let b: Bool = f(x); return x; }` is accepted, `return f(x)` in its place is rejected: the function counts as `Bool` in its own body |
| `C54_instance_violation` | the body of an instance of a generic function is not analyzed if the function is declared before it is used: wrong programs are accepted, depending on the order |
| `C60_violation` | every program with the operator `>=` throws after it was parsed |
| `C57_unknown_violation` | `const c: Uint(8) = -1 as Uint(8);` is accepted, and `c` has no value |
| `C58_signature_violation` | analysis of `function f(x: Uint(f(1))) -> Int` does not end |
| `C58_constant_violation` | analysis of a constant that is computed by an infinite loop does not end |
| `C58_fallthrough_violation` | analysis of `const c = g(); function f() -> Int { let x = 1; } function g() -> Int { return f(); }` does not end: nothing checks that `f` returns, no `return` is generated at its end, and execution runs on into the code of `g` (src/bms/vm/codegen.cpp:74-121) |
| `C59_ub_violation` | a function that calls itself and has no requires-clause, and a call of a parameter: an empty optional is read |
| `C59_throws_violation` | `Uint(1)`, `Uint(128)`, `const c = true || 0 / 0 == 0;`, `let x = assert;`, calls of generic functions with a parameter of type `Int`: exceptions |
| `C40_empty_violation` | the empty block `{}` throws, whatever follows |
| `C41_diverges_violation` | a word followed by a comment in a span, such as `\b{word// comment`, keeps the parser busy for ever |
| `C41_throws_violation` | `\b{}`, `a //` and `\meta{\title{x/**/}}` throw |
| `C41_ub_violation` | a directive such as `\var` reads past the end of the table of directives |
| `C61_paragraph_violation` | the source span of a paragraph starts at the end of the paragraph before it, and covers headings between them |
| `C61_number_violation` | numbers of 2^63 or more are read modulo 2^64 |
| `C61_space_violation` | a space at the end of a title is reported as a paragraph break |
| `C62_comment_violation` | `\b{x/**/}` is a document, but the parser does not end |
| `C62_upper_case_violation` | `\br[a=0xF]` is a document, but its number is reported as invalid |
| `C36_inline_violation` | `@inline` is reported as unknown; only `@inline_` is recognized |
| `C36_association_violation` | stored values do not tell which parameter they were given for |
| `C63_negative_violation` | `@unroll(limit = -1)`, the documented example of a wrong value, makes the parser throw |
| `C63_keyword_violation` | `@c_equivalent(function = "f")` makes the parser throw, because `function` is a keyword |
| `C65_requires_violation` | the BMS generator leaves out `requires` clauses |
| `C65_else_violation` | the BMS generator leaves out `else` in front of a block, which gives a program with another meaning |
| `C65_call_violation` | the BMS generator leaves out `;` behind call statements |
| `C65_not_violation` | the BMS generator writes `!true`, which the tokenizer reads as `!ue` |
| `C65_conversion_violation` | the BMS generator writes `(1 + 2) as Int` as `1 + 2 as Int`, which is rejected |
| `C66_unclosed` | a directive with arguments and without a block, such as `\b[x=y]`, anywhere in a document: there is no page |
| `C66_unsupported_violation`, `C66_throws_violation` | `\br`, `\hr`, `\c{..}`, `\note`, `\item`, lists with arguments, other languages than BMS: exceptions |
| `C66_null_violation` | `\instruction` without a block: a null pointer is dereferenced |
| `C66_comment_violation` | a comment within a paragraph makes the conversion to HTML throw |
| `C66_superscript_violation` | `\sup` is shown as `<sub>` |
| `C66_quote_violation` | a double quote in the name of an instruction ends the attribute of the link |
| `C67_comment_violation`, `C67_space_violation` | code blocks: too many line ends behind comments that span lines, tabs become four spaces, spaces at ends of lines are lost |
| `C67_return_violation`, `C67_return_throws` | a carriage return within code: 2^64 - 1 spaces are written, or the conversion throws |
| `C68_violation`, `C68_same_text_violation` | 10^20 is written `100`: zeros within numbers of more than 64 bits are lost, in error messages and in generated C code |
| `C69_right_operand_violation`, `C69_right_operand_meaning` | the C generator writes `a - (b - c)` as `a - b - c`, and so on for all operators on one level |
| `C69_sign_violation`, `C69_negative_violation` | the C generator writes `-(-x)` as `--x`, and `-` before a negative constant in the same way |
| `C69_conditional_violation` | the C generator writes conditional expressions with one parenthesis only |
| `C69_constant_violation` | with `c_23`, nothing is written where a constant is used |
| `C69_name_violation` | names that are reserved in C are not changed |
| `C70_parameter_violation` | the C generator writes parameters as `name: type` |
| `C70_else_violation` | the C generator leaves out `else` in front of a block, which gives a program with another meaning |
| `C70_call_violation` | the C generator leaves out `;` behind call statements |
| `C70_generic_violation` | the C generator leaves out generic functions, but writes calls of them |
| `C71_unknown_violation` | a constant that analysis accepts without value makes the C generator throw |
| `C72_narrow_violation`, `C72_wrapping_violation` | sums of `uint8_t` and `uint16_t` in generated C code do not wrap around as in BMS, as C computes them in `int` |
| `C72_literal_violation` | a literal of 2^31 or more makes an operation on `uint32_t` in generated C code one of `long` |
| `C72_constant_violation` | constants of type `Uint` are written without their type, so that `~c` is negative in C |
| `C72_shift_violation` | shifts by the width or more are zero in BMS and undefined in generated C code |
| `C72_int_violation` | `Int` has 128 bits in BMS and is `int` in C, where overflow is undefined |
| `C73_throws`, `C73_unterminated_string` | a string without an end and a prefix like `0x` without digits are not reported: there is no message for them, so that an exception is thrown |
| `C73_colours` | reports contain escape sequences for colours even if these are turned off |
| `C74_end`, `C74_missing_semicolon` | if tokens are missing at the end, then an identifier at 1:1 is blamed; without any text an exception is thrown |
| `C74_expected_anyway` | for `const x = (1 2);` a literal is blamed although literals are among the tokens said to be expected |
| `C75_throws` | errors at the end of a document, like a missing `}`, are not reported: an exception is thrown |
| `C75_newline`, `C76_code` | an error at a line feed is reported with the text of the next line, but with the number of the line before it |
| `C78_lists` | the node for a list of parameters or annotations is at its last element, as `first_pos` is overwritten for each |
| `C79_arguments`, `C79_arguments_sample` | dumping the tree of a program in which an annotation has two arguments is undefined behaviour: there is only one name for its children |
| `C79_colours` | dumps of documents contain escape sequences even if colours are turned off |
| `C79_document_sample` | a paragraph after a heading is shown with the text of the heading, because its span begins there |
| `C80_order` | the same three declarations are accepted or rejected depending on their order: a function can be called before its declaration, but not before the constants in its signature are declared |
| `C81_return`, `C81_return_program` | reporting that the expression of a return statement has a wrong type fails an assertion, as the error has no type: nothing is reported |
| `C81_execution`, `C81_execution_program` | reporting an error of execution in a constant call reads the inactive member of a union |
| `C81_hidden` | errors in the evaluation of operators are reported without the reason, so that division by zero and shifts that are too far look the same |
| `C81_argument_value` | the note about a wrong value of an argument of an annotation ends after "must be": the allowed values are never set |
| `C81_deduction` | the note "The following expression is not of type 'Uint'" quotes the width of the parameter instead of the argument |
| `C82_unknown_violation` | a program with a constant whose value analysis does not know (`-1 as Uint(8)`) is accepted, but the generators of C and C++ code throw when the constant is used |
| `C82_language_violation` | rust, java, kotlin, javascript and typescript are accepted as names of languages, but generating their code fails an assertion |
| `C83_html_violation` | `html` of a BMS file says that this is not supported, writes nothing and ends with status 0; a document that cannot be converted leaves the output file empty, whatever it contained before |
| `C83_suffix` | the help says that `dump_tokens` prints tokens of BMD files, but these are refused |
| `C83_colour_violation` | messages about the suffix of a file or the name of a language switch the terminal to red and never back |
| `C84_violation` | move assignment of `Result<T, Error>` has no `return`, so that every such assignment is undefined behaviour; the program only assigns results of functions that return nothing |
| `C85_violation` | `function f(x: Int) -> Int requires true { return f(x); }` is rejected because of the types, although both are `Int`: while a function is analyzed, the `const_value()` of its node is that of the requires-clause |
| `C86_violated` | `const c=true&&true;` is rejected because `rue` is unknown, `const c=true&& true;` is accepted: `&&` takes the character that follows it |
| `C62_number_violation` | integer literals of documents from 2^63 on (up to 2^127) are read as another number, since the value is cast to 64 bits; no error is reported |
| `C87_terminal_partial` | if the result of a function has a wrong type, then `verify` ends with an internal error and shows no report (general form of `C81_return_program`) |
| `C88_violation` | `reset` and `clear` keep the comparison that was recorded for assertions: after a reset, a failed `assert(false)` is reported with the operands of an earlier assertion that succeeded |
| `C89_violation` | the same two functions, one of them generic, are accepted in one order and rejected in the other one |
| `C93_type_violation` | the dump of a program shows the same line for a number of type `Int` and of type `Uint(w)` |
| `C93_number_violation` | the dump of a program shows 10^20 as `100` (consequence of the violation of C68) |
