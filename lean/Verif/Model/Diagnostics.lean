import Verif.Model.Parse
import Verif.Model.Bmd
import Verif.Model.DocHtml
import Verif.Model.ToString

/-!
# Printing of errors

Transcribes the functions of src/common/diagnostics.cpp that print the errors of the tokenizer, of the
two parsers and of the conversion of documents, and `find_line`.

Simplifications:
* An output stream is the list of what was written to it. Escape sequences for colours
  (src/common/ansi.hpp) are kept apart from other text. The stream does not fail, and its flags are those
  that the functions set before they write.
* What was written before an exception is thrown is not recorded.
* Errors of analysis are not printed here.
-/

namespace Bms

namespace Diag

/-- What is written by one `<<`: an escape sequence for colours, or text. -/
inductive Piece where
  | ansi (code : List Char)
  | text (s : List Char)
deriving DecidableEq, Repr

abbrev Out := List Piece

/-- The characters that are sent to the terminal. -/
def bytes : Out → List Char
  | [] => []
  | .ansi s :: out => s ++ bytes out
  | .text s :: out => s ++ bytes out

/-- How printing ends. -/
abbrev Print (α : Type) := Outcome Empty α

/-- A string literal. -/
def lit (s : String) : Piece := .text s.toList

/-- The colours of src/common/ansi.hpp:8-28. -/
def ansiBlack : Piece := .ansi "\x1B[30m".toList
def ansiHRed : Piece := .ansi "\x1B[0;91m".toList
def ansiHGreen : Piece := .ansi "\x1B[0;92m".toList
def ansiHYellow : Piece := .ansi "\x1B[0;93m".toList
def ansiHWhite : Piece := .ansi "\x1B[0;97m".toList
def ansiReset : Piece := .ansi "\x1B[0m".toList

/-- `if (colors) { out << c; }` -/
def color (colors : Bool) (c : Piece) : Out := if colors then [c] else []

/-- `error_prefix`, diagnostics.cpp:90. -/
def errorPrefix : Out := [ansiHRed, lit "error: ", ansiReset]

/-- `note_prefix`, diagnostics.cpp:91. -/
def notePrefix : Out := [ansiHWhite, lit "note: ", ansiReset]

/-- `std::right << std::setfill(' ') << std::setw(w) << s`. -/
def padLeft (w : Nat) (s : List Char) : List Char := List.replicate (w - s.length) ' ' ++ s

/-! ## Lines -/

/-- `s.rfind('\n', index)`: the last line feed at `index` or before it. `fuel` is `index + 1` in the first
call. -/
def rfindNewline (s : List Char) : Nat → Option Nat
  | 0 => none
  | i + 1 => if s[i]? = some '\n' then some i else rfindNewline s i

/-- `s.find('\n', index)`. -/
def findNewline (s : List Char) (index : Nat) : Option Nat :=
  ((s.drop index).findIdx? (· = '\n')).map (· + index)

/-- `find_line`, diagnostics.cpp:619-629. `std::string_view::npos` is the largest number, so that
`std::min` gives the size if nothing is found. -/
def findLine (source : List Char) (index : Nat) : Print (List Char) :=
  if index < source.length then
    let start := ((rfindNewline source (index + 1)).map (· + 1)).getD 0
    let stop := min ((findNewline source (index + 1)).getD source.length) source.length
    .ok ((source.drop start).take (stop - start))
  else .throws

/-- `print_file_position`, diagnostics.cpp:604-617. -/
def printFilePosition (file : List Char) (pos : Position) (colors : Bool) : Out :=
  color colors ansiBlack ++
  [.text file, lit ":", .text (stdToString (pos.line + 1)), lit ":",
    .text (stdToString (pos.column + 1))] ++
  color colors ansiReset

/-- `print_affected_line`, diagnostics.cpp:643-670. -/
def printAffectedLine (source : List Char) (pos : Position) (colors : Bool) : Print Out := do
  let line ← findLine source pos.start
  return color colors ansiHYellow ++
    [.text (padLeft 5 (stdToString (pos.line + 1))), lit " | "] ++
    color colors ansiReset ++
    [.text line, lit "\n", .text (padLeft 5 []), lit " | ", .text (List.replicate pos.column ' ')] ++
    color colors ansiHGreen ++
    [lit "^\n"] ++
    color colors ansiReset

/-! ## Errors of the tokenizer -/

/-- `to_prose(Tokenize_Error_Code)`, diagnostics.cpp:93-105; the default case is an assertion. -/
def tokenizeProse : TokenizeErrorCode → Print Piece
  | .illegal_character => .ok (lit "Illegal character encountered.")
  | .integer_suffix => .ok (lit "Suffix after integer literal is not allowed")
  | .unterminated_comment =>
    .ok (lit "Unterminated block comment found. '/*' must have a matching '*/'")
  | _ => .throws

/-- `print_tokenize_error`, diagnostics.cpp:672-682. -/
def printTokenizeError (file source : List Char) (e : TokenizeError) (colors : Bool) : Print Out := do
  let prose ← tokenizeProse e.code
  let line ← printAffectedLine source e.pos colors
  return printFilePosition file e.pos colors ++ [lit ": "] ++ errorPrefix ++ [prose, lit "\n"] ++ line

/-! ## Errors of the parser for programs -/

/-- `token_type_readable_name`, src/bms/util.cpp:76-141. -/
def readableName : TokenType → List Char
  | .identifier => "identifier".toList
  | .left_parenthesis => "'('".toList
  | .right_parenthesis => "')'".toList
  | .decimal_literal => "decimal literal".toList
  | .octal_literal => "octal literal".toList
  | .hexadecimal_literal => "hexadecimal literal".toList
  | .binary_literal => "binary literal".toList
  | .string_literal => "string_literal".toList
  | .left_brace => "'{'".toList
  | .right_brace => "'}'".toList
  | .block_comment => "'/*'".toList
  | .line_comment => "'//'".toList
  | .assign => "'='".toList
  | .equals => "'=='".toList
  | .not_equals => "'!='".toList
  | .plus => "'+'".toList
  | .minus => "'-'".toList
  | .multiplication => "'*'".toList
  | .division => "'/'".toList
  | .remainder => "'%'".toList
  | .less_than => "'<'".toList
  | .greater_than => "'>'".toList
  | .less_or_equal => "'<='".toList
  | .greater_or_equal => "'>='".toList
  | .shift_left => "'<<'".toList
  | .shift_right => "'>>'".toList
  | .bitwise_and => "'&'".toList
  | .bitwise_or => "'|'".toList
  | .bitwise_not => "'~'".toList
  | .bitwise_xor => "'^'".toList
  | .logical_and => "'&&'".toList
  | .logical_or => "'||'".toList
  | .logical_not => "'!'".toList
  | .right_arrow => "'->'".toList
  | .double_right_arrow => "'=>'".toList
  | .dot => "'.'".toList
  | .colon => "':'".toList
  | .comma => "','".toList
  | .at_sign => "'@'".toList
  | .semicolon => "';'".toList
  | .keyword_as => "'as'".toList
  | .keyword_let => "'let'".toList
  | .keyword_const => "'const'".toList
  | .keyword_function => "'function'".toList
  | .keyword_while => "'while'".toList
  | .keyword_if => "'if'".toList
  | .keyword_else => "'else'".toList
  | .keyword_uint => "'Uint'".toList
  | .keyword_int => "'Int'".toList
  | .keyword_bool => "'Bool'".toList
  | .keyword_void => "'Void'".toList
  | .keyword_requires => "'requires'".toList
  | .keyword_return => "'return'".toList
  | .keyword_break => "'break'".toList
  | .keyword_continue => "'continue'".toList
  | .keyword_true => "'true'".toList
  | .keyword_false => "'false'".toList
  | .keyword_static_assert => "'static_assert'".toList

/-- `grammar_rule_name`, src/bms/util.cpp:451-505, for the rules of errors. -/
def ruleName : Parse.GrammarRule → List Char
  | .program_declaration => "program_declaration".toList
  | .const_declaration => "const_declaration".toList
  | .let_declaration => "let_declaration".toList
  | .initializer => "initializer".toList
  | .function_declaration => "function_declaration".toList
  | .requires_clause => "requires_clause".toList
  | .parameter => "parameter".toList
  | .static_assertion => "static_assertion".toList
  | .annotation => "annotation".toList
  | .annotation_argument => "annotation_argument".toList
  | .statement => "statement".toList
  | .assignment_statement => "assignment_statement".toList
  | .function_call_statement => "function_call_statement".toList
  | .assignment => "assignment".toList
  | .break_statement => "break_statement".toList
  | .continue_statement => "continue_statement".toList
  | .return_statement => "return_statement".toList
  | .if_statement => "if_statement".toList
  | .else_statement => "else_statement".toList
  | .while_statement => "while_statement".toList
  | .block_statement => "block_statement".toList
  | .conversion_expression => "conversion_expression".toList
  | .if_expression => "if_expression".toList
  | .comparison_expression => "comparison_expression".toList
  | .function_call_expression => "function_call_expression".toList
  | .primary_expression => "primary_expression".toList
  | .parenthesized_expression => "parenthesized_expression".toList
  | .type => "type".toList

/-- `print_parse_error` for programs: the list of expected tokens, diagnostics.cpp:697-710. -/
def printExpected : List TokenType → Out
  | [] => [lit "nothing"]
  | [t] => [.text (readableName t)]
  | ts => lit "one of: " :: go ts true
where
  /-- The loop; `first` is `i == 0`. -/
  go : List TokenType → Bool → Out
    | [], _ => []
    | [t], _ => [lit ", or ", .text (readableName t)]
    | t :: ts, first => (if first then lit "" else lit ", ") :: .text (readableName t) :: go ts false

/-- `print_parse_error` for programs, diagnostics.cpp:684-713. -/
def printParseError (file source : List Char) (e : Parse.ParseError) (colors : Bool) : Print Out := do
  let line ← printAffectedLine source e.token.pos colors
  return printFilePosition file e.token.pos colors ++ [lit ": "] ++ errorPrefix ++
    [lit "unexpected token ", .text (readableName e.token.type), lit " while matching '",
      .text (ruleName e.rule), lit "'\n"] ++
    printFilePosition file e.token.pos colors ++ [lit ": "] ++ notePrefix ++ [lit "expected "] ++
    printExpected e.expected ++ [lit "\n"] ++ line

/-! ## Errors of documents -/

/-- `to_prose(bmd::Parse_Error_Code)`, diagnostics.cpp:269-300. -/
def documentProse : Bmd.Code → Piece
  | .unexpected_character => lit "Encountered unexpected character while parsing."
  | .unexpected_eof => lit "Unexpected end of file."
  | .unterminated_comment => lit "Unterminated comment."
  | .invalid_integer_literal => lit "Invalid integer literal."
  | .integer_suffix =>
    lit "Suffixes after integer literals are not allowed. Did you forget a space, comma, etc.?"
  | .invalid_directive => lit "Invalid directive."
  | .duplicate_argument => lit "Duplicate argument in directive argument list."
  | .directive_must_be_empty => lit "This directive must have an empty block or no block at all."
  | .paragraph_break_in_span =>
    lit "Paragraph breaks (blank lines) are not allowed in this directive."
  | .directive_in_text_span => lit "Only plaintext is allowed here, no directives."
  | .text_in_directive_list => lit "Only directives are allowed here, no plaintext."
  | .directive_not_allowed => lit "This directive is not allowed here."

/-- `grammar_rule_name`, src/bmd/parsing/grammar.hpp:36-60. -/
def documentRuleName : Bmd.Rule → List Char
  | .document => "document".toList
  | .content => "content".toList
  | .paragraph => "paragraph".toList
  | .paragraph_break => "paragraph_break".toList
  | .text => "text".toList
  | .directive => "directive".toList
  | .arguments => "arguments".toList
  | .block => "block".toList
  | .raw_content => "raw_content".toList
  | .argument => "argument".toList
  | .value => "value".toList
  | .binary_literal => "binary_literal".toList
  | .octal_literal => "octal_literal".toList
  | .decimal_literal => "decimal_literal".toList
  | .hexadecimal_literal => "hexadecimal_literal".toList
  | .identifier => "identifier".toList
  | .blank => "blank".toList

/-- The message of `print_parse_error` for documents, diagnostics.cpp:723-730; `source[i]` of a view is
undefined behaviour unless there is such a character. -/
def documentMessage (source : List Char) (code : Bmd.Code) (rule : Bmd.Rule) (pos : Position) :
    Print Out :=
  if code = .unexpected_character then
    match source[pos.start]? with
    | some c => .ok [lit "unexpected character '", .text [c], lit "' while matching '",
        .text (documentRuleName rule), lit "'\n"]
    | none => .ub
  else .ok [documentProse code, lit "\n"]

/-- `print_parse_error` for documents, diagnostics.cpp:715-737. -/
def printDocumentParseError (file source : List Char) (code : Bmd.Code) (rule : Bmd.Rule)
    (pos : Position) (colors : Bool) : Print Out := do
  let message ← documentMessage source code rule pos
  let start := printFilePosition file pos colors ++ [lit ": "] ++ errorPrefix ++ message
  if source.isEmpty then return start
  else
    let line ← printAffectedLine source pos colors
    return start ++ line

/-- `to_prose(bmd::Document_Error_Code)`, diagnostics.cpp:302-325. -/
def conversionProse : Bmd.DocCode → Piece
  | .writer_misuse => lit "The internal HTML writer has been misused by the developer."
  | .directive_not_allowed => lit "This directive is not allowed here."
  | .meta_not_at_start_of_file =>
    lit "A \\meta directive must be at the beginning of the document."
  | .duplicate_meta_entry =>
    lit "Each entry within a \\meta directive must be unique, but an entry was duplicated."
  | .invalid_language => lit "This language is not valid or not supported for syntax highlighting."
  | .invalid_architecture => lit "This architecture is not valid."
  | .number_attribute_not_allowed =>
    lit "This annotation cannot have a numeric value; only strings can be provided."
  | .code_tokenization_failure =>
    lit "Syntax highlighting for this code snipped failed. Is it ill-formed? Consider using 'text' language or '\\tt' (teletype), not '\\c'."

/-- `print_internal_error_notice`, diagnostics.cpp:992-1003. -/
def internalNotice (colors : Bool) : Out :=
  color colors ansiHYellow ++
  [lit "This is an internal error. Please report this bug at:\n",
    lit "https://github.com/Eisenwave/bit-manipulation/issues\n"] ++
  color colors ansiReset

/-- `print_document_error`, diagnostics.cpp:748-762. -/
def printDocumentError (file source : List Char) (e : Bmd.DocError) (colors : Bool) : Print Out := do
  let line ← printAffectedLine source e.pos colors
  return printFilePosition file e.pos colors ++ [lit ": "] ++ errorPrefix ++
    [conversionProse e.code, lit "\n"] ++ line ++
    (if e.code = .writer_misuse then internalNotice colors else [])

end Diag

end Bms
