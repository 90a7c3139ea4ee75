import Verif.Model.Outcome
import Verif.Model.Text

/-!
# Tokenization

Transcribes src/bms/tokenization/token_type.hpp, token.hpp, tokenize.cpp and the token table
`token_type_length` of src/bms/util.cpp.
-/

namespace Bms

/-- `Token_Type`, src/bms/tokenization/token_type.hpp:11-128. -/
inductive TokenType where
  | identifier | left_parenthesis | right_parenthesis
  | decimal_literal | octal_literal | hexadecimal_literal | binary_literal | string_literal
  | left_brace | right_brace | block_comment | line_comment
  | assign | equals | not_equals | plus | minus | multiplication | division | remainder
  | less_than | greater_than | less_or_equal | greater_or_equal | shift_left | shift_right
  | bitwise_and | bitwise_or | bitwise_not | bitwise_xor | logical_and | logical_or | logical_not
  | right_arrow | double_right_arrow | dot | colon | comma | at_sign | semicolon
  | keyword_as | keyword_let | keyword_const | keyword_function | keyword_while | keyword_if
  | keyword_else | keyword_uint | keyword_int | keyword_bool | keyword_void | keyword_requires
  | keyword_return | keyword_break | keyword_continue | keyword_true | keyword_false
  | keyword_static_assert
deriving DecidableEq, Repr

namespace TokenType

/-- Every token type; used to check complete tables. -/
def all : List TokenType :=
  [identifier, left_parenthesis, right_parenthesis, decimal_literal, octal_literal,
   hexadecimal_literal, binary_literal, string_literal, left_brace, right_brace, block_comment,
   line_comment, assign, equals, not_equals, plus, minus, multiplication, division, remainder,
   less_than, greater_than, less_or_equal, greater_or_equal, shift_left, shift_right, bitwise_and,
   bitwise_or, bitwise_not, bitwise_xor, logical_and, logical_or, logical_not, right_arrow,
   double_right_arrow, dot, colon, comma, at_sign, semicolon, keyword_as, keyword_let, keyword_const,
   keyword_function, keyword_while, keyword_if, keyword_else, keyword_uint, keyword_int,
   keyword_bool, keyword_void, keyword_requires, keyword_return, keyword_break, keyword_continue,
   keyword_true, keyword_false, keyword_static_assert]

/-- `token_type_length`, src/bms/util.cpp:201-274. -/
def length : TokenType → Nat
  | identifier | binary_literal | octal_literal | decimal_literal | hexadecimal_literal
  | string_literal | block_comment | line_comment => 0
  | left_parenthesis | right_parenthesis | left_brace | right_brace | assign | plus | minus
  | multiplication | division | remainder | less_than | greater_than | bitwise_and | bitwise_or
  | bitwise_not | bitwise_xor | dot | colon | comma | at_sign | semicolon => 1
  | equals | not_equals | less_or_equal | greater_or_equal | shift_left | shift_right | logical_or
  | right_arrow | double_right_arrow | keyword_as | keyword_if => 2
  | logical_and | logical_not | keyword_let | keyword_int => 3
  | keyword_else | keyword_uint | keyword_bool | keyword_void | keyword_true => 4
  | keyword_const | keyword_break | keyword_while | keyword_false => 5
  | keyword_return => 6
  | keyword_function | keyword_requires | keyword_continue => 8
  | keyword_static_assert => 13

/-- `token_type_code_name`, src/bms/util.cpp:143-199. -/
def codeName : TokenType → String
  | left_brace => "{"
  | right_brace => "}"
  | block_comment => "/*"
  | line_comment => "//"
  | assign => "="
  | equals => "=="
  | not_equals => "!="
  | plus => "+"
  | minus => "-"
  | multiplication => "*"
  | division => "/"
  | remainder => "%"
  | less_than => "<"
  | greater_than => ">"
  | less_or_equal => "<="
  | greater_or_equal => ">="
  | shift_left => "<<"
  | shift_right => ">>"
  | bitwise_and => "&"
  | bitwise_or => "|"
  | bitwise_not => "~"
  | bitwise_xor => "^"
  | logical_and => "&&"
  | logical_or => "||"
  | logical_not => "!"
  | right_arrow => "->"
  | double_right_arrow => "=>"
  | dot => "."
  | colon => ":"
  | comma => ","
  | semicolon => ";"
  | keyword_as => "as"
  | keyword_let => "let"
  | keyword_const => "const"
  | keyword_function => "function"
  | keyword_while => "while"
  | keyword_if => "if"
  | keyword_else => "else"
  | keyword_uint => "Uint"
  | keyword_int => "Int"
  | keyword_bool => "Bool"
  | keyword_void => "Void"
  | keyword_requires => "requires"
  | keyword_return => "return"
  | keyword_break => "break"
  | keyword_continue => "continue"
  | keyword_true => "true"
  | keyword_false => "false"
  | keyword_static_assert => "static_assert"
  | _ => ""

/-- `is_comment`, src/bms/util.cpp:276-279. -/
def isComment (t : TokenType) : Bool := t = line_comment || t = block_comment

end TokenType

/-- `Local_Source_Position`, src/common/source_position.hpp:12-34. -/
structure Position where
  line : Nat
  column : Nat
  start : Nat
deriving DecidableEq, Repr

/-- `to_right`, src/common/source_position.hpp:23-26 and 42-45. -/
def Position.toRight (p : Position) (offset : Nat) : Position :=
  ⟨p.line, p.column + offset, p.start + offset⟩

/-- `Token`, src/bms/tokenization/token.hpp:13-26; `pos.length` of the span is `length`. -/
structure Token where
  pos : Position
  length : Nat
  type : TokenType
deriving DecidableEq, Repr

/-- `Tokenize_Error_Code`, src/bms/tokenization/tokenize_error.hpp:11-22. -/
inductive TokenizeErrorCode where
  | illegal_character | no_digits_following_integer_prefix | integer_suffix
  | unterminated_comment | unterminated_string
deriving DecidableEq, Repr

/-- `Tokenize_Error`, src/bms/tokenization/tokenize_error.hpp:37-40. -/
structure TokenizeError where
  code : TokenizeErrorCode
  pos : Position
deriving DecidableEq, Repr

/-- `token_type_of`, src/bms/tokenization/tokenize.cpp:17-26. -/
def tokenTypeOf : LiteralType → TokenType
  | .binary => .binary_literal
  | .octal => .octal_literal
  | .decimal => .decimal_literal
  | .hexadecimal => .hexadecimal_literal

/-- The table of `keyword_by_name`, src/bms/tokenization/tokenize.cpp:33-52. -/
def keywordTable : List (String × TokenType) :=
  [("as", .keyword_as), ("if", .keyword_if), ("else", .keyword_else), ("let", .keyword_let),
   ("const", .keyword_const), ("Int", .keyword_int), ("Uint", .keyword_uint),
   ("Bool", .keyword_bool), ("Void", .keyword_void), ("while", .keyword_while),
   ("break", .keyword_break), ("continue", .keyword_continue), ("return", .keyword_return),
   ("function", .keyword_function), ("true", .keyword_true), ("false", .keyword_false),
   ("requires", .keyword_requires), ("static_assert", .keyword_static_assert)]

/-- `keyword_by_name`, src/bms/tokenization/tokenize.cpp:28-61: the first entry whose name is the
text. -/
def keywordByName (s : List Char) : Option TokenType :=
  (keywordTable.find? fun e => e.1.toList = s).map (·.2)

/-- `match_fixed_length_token`, src/bms/tokenization/tokenize.cpp:63-165; `s.length() > 1 && s[1]
== c` is `s[1]? = some c`. -/
def matchFixedLengthToken (s : List Char) : Option TokenType :=
  match s with
  | [] => none
  | c :: cs =>
    let next (d : Char) : Bool := cs.head? = some d
    if c = '(' then some .left_parenthesis
    else if c = ')' then some .right_parenthesis
    else if c = '{' then some .left_brace
    else if c = '}' then some .right_brace
    else if c = '=' then
      if next '=' then some .equals
      else if next '>' then some .double_right_arrow
      else some .assign
    else if c = '+' then some .plus
    else if c = '-' then if next '>' then some .right_arrow else some .minus
    else if c = '*' then some .multiplication
    else if c = '/' then some .division
    else if c = '%' then some .remainder
    else if c = '<' then
      if next '<' then some .shift_left
      else if next '=' then some .less_or_equal
      else some .less_than
    else if c = '>' then
      if next '>' then some .shift_right
      else if next '=' then some .greater_or_equal
      else some .greater_than
    else if c = '&' then if next '&' then some .logical_and else some .bitwise_and
    else if c = '|' then if next '|' then some .logical_or else some .bitwise_or
    else if c = '^' then some .bitwise_xor
    else if c = '~' then some .bitwise_not
    else if c = '!' then if next '=' then some .not_equals else some .logical_not
    else if c = ':' then some .colon
    else if c = ';' then some .semicolon
    else if c = '.' then some .dot
    else if c = ',' then some .comma
    else if c = '@' then some .at_sign
    else none

/-- `Tokenize_Result`, src/bms/tokenization/tokenize.cpp:167-177: its constructor asserts that the
length is not zero. -/
def tokenizeResult (length : Nat) (type : TokenType) : Outcome TokenizeError (Nat × TokenType) :=
  if length ≠ 0 then .ok (length, type) else .throws

/-- One character of `advance_position_by`, src/bms/tokenization/tokenize.cpp:192-201. -/
def Position.advance (p : Position) (c : Char) : Position :=
  if c = '\t' then ⟨p.line, p.column + 4, p.start + 1⟩
  else if c = '\r' then ⟨p.line, 0, p.start + 1⟩
  else if c = '\n' then ⟨p.line + 1, 0, p.start + 1⟩
  else ⟨p.line, p.column + 1, p.start + 1⟩

/-- `advance_position_by`, src/bms/tokenization/tokenize.cpp:188-203. The loop reads
`m_source[pos.begin]` and increments `pos.begin`, that is, it walks over `length` characters of
the text from `pos.begin`, which the assertion guarantees to exist. -/
def advancePositionBy (src : List Char) (pos : Position) (length : Nat) :
    Outcome TokenizeError Position :=
  if pos.start + length < src.length then
    .ok (((src.drop pos.start).take length).foldl Position.advance pos)
  else .throws

/-- `try_match`, src/bms/tokenization/tokenize.cpp:242-317. -/
def tryMatch (pos : Position) (s : List Char) : Outcome TokenizeError (Nat × TokenType) :=
  match s with
  | [] => .throws
  | c :: _ =>
    if isSpace c then .throws
    else if c = '/' then
      match matchLineComment s with
      | some m => tokenizeResult m.length .line_comment
      | none =>
        match matchBlockComment s with
        | some m =>
          if ¬ m.isTerminated then .err ⟨.unterminated_comment, pos⟩
          else tokenizeResult m.length .block_comment
        | none =>
          match matchFixedLengthToken s with
          | some type => tokenizeResult type.length type
          | none => .err ⟨.illegal_character, pos⟩
    else if c = '"' then
      match matchStringLiteral s with
      | some m =>
        if ¬ m.isTerminated then .err ⟨.unterminated_string, pos⟩
        else tokenizeResult m.length .string_literal
      | none => .err ⟨.illegal_character, pos⟩
    else if isDecimalDigit c then
      match matchIntegerLiteral s with
      | .ok digits type =>
        match s[digits]? with
        | some d =>
          if identifierCharacters.contains d then .err ⟨.integer_suffix, pos.toRight digits⟩
          else tokenizeResult digits (tokenTypeOf type)
        | none => tokenizeResult digits (tokenTypeOf type)
      | .no_digits_following_prefix _ =>
        .err ⟨.no_digits_following_integer_prefix, pos.toRight 2⟩
      | .no_digits => .err ⟨.illegal_character, pos⟩
    else
      match matchFixedLengthToken s with
      | some type => tokenizeResult type.length type
      | none =>
        if matchIdentifier s ≠ 0 then
          match keywordByName (s.take (matchIdentifier s)) with
          | some keyword => tokenizeResult (matchIdentifier s) keyword
          | none => tokenizeResult (matchIdentifier s) .identifier
        else .err ⟨.illegal_character, pos⟩

/-- The whitespace step at the beginning of an iteration, src/bms/tokenization/tokenize.cpp:212-220.
`none`: only whitespace is left (`break`). Otherwise the position after the whitespace. -/
def skipWhitespace (src : List Char) (pos : Position) : Outcome TokenizeError (Option Position) :=
  match findFirstNotOf [' ', '\r', '\t', '\n'] (src.drop pos.start) with
  | none => .ok none
  | some 0 => .ok (some pos)
  | some n => (advancePositionBy src pos n).map some

/-- The position after a token, src/bms/tokenization/tokenize.cpp:229-236. -/
def positionAfter (src : List Char) (pos : Position) (length : Nat) (type : TokenType) :
    Outcome TokenizeError Position :=
  if type ≠ .block_comment then .ok (pos.toRight length)
  else advancePositionBy src pos length

/-- The part of an iteration of `Tokenizer::tokenize` that finds the next token,
src/bms/tokenization/tokenize.cpp:209-227, for `pos.begin != m_source.length()`; `none` is `break`.
The remainder after the whitespace, `remainder.substr(whitespace_length)`, is the text from the
advanced position. -/
def nextToken (src : List Char) (pos : Position) : Outcome TokenizeError (Option Token) :=
  if pos.start < src.length then
    (skipWhitespace src pos).bind fun p =>
      match p with
      | none => .ok none
      | some p => (tryMatch p (src.drop p.start)).map fun r => some ⟨p, r.1, r.2⟩
  else .throws

/-- The loop of `Tokenizer::tokenize`, src/bms/tokenization/tokenize.cpp:206-240: the contents of
`out` and the result. The C++ loop is unbounded; here it has fuel, and `none` means that the fuel
ran out. -/
def tokenizeLoop (src : List Char) : Nat → Position → List Token →
    Option (List Token × Outcome TokenizeError Unit)
  | 0, _, _ => none
  | fuel + 1, pos, out =>
    if pos.start = src.length then some (out, .ok ())
    else
      match nextToken src pos with
      | .ok none => some (out, .ok ())
      | .ok (some t) =>
        match positionAfter src t.pos t.length t.type with
        | .ok next => tokenizeLoop src fuel next (out ++ [t])
        | .err e => some (out ++ [t], .err e)
        | .throws => some (out ++ [t], .throws)
        | .ub => some (out ++ [t], .ub)
      | .err e => some (out, .err e)
      | .throws => some (out, .throws)
      | .ub => some (out, .ub)

/-- `tokenize`, src/bms/tokenization/tokenize.cpp:321-325, started with an empty output vector and
one more unit of fuel than there are characters (`C22_terminates` shows that this fuel suffices and
that more fuel does not change the result, so that this is the result of the C++ loop). -/
def tokenize (src : List Char) : Option (List Token × Outcome TokenizeError Unit) :=
  tokenizeLoop src (src.length + 1) ⟨0, 0, 0⟩ []

end Bms
