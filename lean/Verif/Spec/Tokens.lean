import Verif.Spec.Text
import Verif.Model.Tokenize

/-!
# Specification: tokens

What the text of a token of each type looks like, what it means that tokens tile a text, and which
line and column a prefix of the text leads to. Nothing here refers to the tokenizer's functions.
-/

namespace Bms.Spec

/-- The spelling of the token types that have a fixed one (operators, punctuation, keywords), from
the language description. -/
def spelling : TokenType → Option String
  | .left_parenthesis => some "("
  | .right_parenthesis => some ")"
  | .left_brace => some "{"
  | .right_brace => some "}"
  | .assign => some "="
  | .equals => some "=="
  | .not_equals => some "!="
  | .plus => some "+"
  | .minus => some "-"
  | .multiplication => some "*"
  | .division => some "/"
  | .remainder => some "%"
  | .less_than => some "<"
  | .greater_than => some ">"
  | .less_or_equal => some "<="
  | .greater_or_equal => some ">="
  | .shift_left => some "<<"
  | .shift_right => some ">>"
  | .bitwise_and => some "&"
  | .bitwise_or => some "|"
  | .bitwise_not => some "~"
  | .bitwise_xor => some "^"
  | .logical_and => some "&&"
  | .logical_or => some "||"
  | .logical_not => some "!"
  | .right_arrow => some "->"
  | .double_right_arrow => some "=>"
  | .dot => some "."
  | .colon => some ":"
  | .comma => some ","
  | .at_sign => some "@"
  | .semicolon => some ";"
  | .keyword_as => some "as"
  | .keyword_let => some "let"
  | .keyword_const => some "const"
  | .keyword_function => some "function"
  | .keyword_while => some "while"
  | .keyword_if => some "if"
  | .keyword_else => some "else"
  | .keyword_uint => some "Uint"
  | .keyword_int => some "Int"
  | .keyword_bool => some "Bool"
  | .keyword_void => some "Void"
  | .keyword_requires => some "requires"
  | .keyword_return => some "return"
  | .keyword_break => some "break"
  | .keyword_continue => some "continue"
  | .keyword_true => some "true"
  | .keyword_false => some "false"
  | .keyword_static_assert => some "static_assert"
  | _ => none

/-- `text` is a token of the given type. -/
inductive Lexeme : TokenType → List Char → Prop
  | fixed {ty sp} : spelling ty = some sp → Lexeme ty sp.toList
  | identifier {s} : Ident s → (∀ ty sp, spelling ty = some sp → sp.toList ≠ s) →
      Lexeme .identifier s
  | binary {s v} : Literal .binary s v → Lexeme .binary_literal s
  | octal {s v} : Literal .octal s v → Lexeme .octal_literal s
  | decimal {s v} : Literal .decimal s v → Lexeme .decimal_literal s
  | hexadecimal {s v} : Literal .hexadecimal s v → Lexeme .hexadecimal_literal s
  | string {body} : StringBody body → Lexeme .string_literal ('"' :: (body ++ ['"']))
  | lineComment {body} : '\n' ∉ body → Lexeme .line_comment ('/' :: '/' :: body)
  | blockComment {body} : ¬ ['*', '/'] <:+: body ++ ['*'] →
      Lexeme .block_comment ('/' :: '*' :: (body ++ ['*', '/']))

def White (c : Char) : Prop := c = ' ' ∨ c = '\t' ∨ c = '\r' ∨ c = '\n'

instance (c : Char) : Decidable (White c) := inferInstanceAs (Decidable (_ ∨ _))

/-- The text, which begins at the given offset, consists of the given tokens, each preceded by
whitespace, and of the rest. -/
inductive Tiled : Nat → List Char → List Token → List Char → Prop
  | nil {offset rest} : Tiled offset rest [] rest
  | cons {offset gap text more t ts rest} : (∀ c ∈ gap, White c) → text ≠ [] →
      t.pos.start = offset + gap.length → t.length = text.length →
      Tiled (offset + gap.length + text.length) more ts rest →
      Tiled offset (gap ++ text ++ more) (t :: ts) rest

/-- The part of the source that the token covers. -/
def textOf (src : List Char) (t : Token) : List Char := (src.drop t.pos.start).take t.length

/-- Characters that move the position other than by one column. -/
def Special (c : Char) : Prop := c = '\t' ∨ c = '\r' ∨ c = '\n'

instance (c : Char) : Decidable (Special c) := inferInstanceAs (Decidable (_ ∨ _))

/-- The column after the text: characters since the last line feed or carriage return, a tab
counting four. -/
def columnAfter (s : List Char) : Nat :=
  ((s.reverse.takeWhile fun c => decide (c ≠ '\n' ∧ c ≠ '\r')).map
    fun c => if c = '\t' then 4 else 1).sum

/-- The position after the text: line feeds before it, column, offset. -/
def positionAfterText (s : List Char) : Position :=
  ⟨s.count '\n', columnAfter s, s.length⟩

/-- `s` is a text that begins with an error: no token can be read at its beginning, and the error of
the given kind lies at the given offset. -/
inductive LexicalError : TokenizeErrorCode → Nat → List Char → Prop
  | illegal {c cs} : ¬ White c → (∀ ty text, text <+: c :: cs → ¬ Lexeme ty text) →
      (c ≠ '/' ∧ c ≠ '"' ∧ ¬ IdentPart c) →
      LexicalError .illegal_character 0 (c :: cs)
  | comment {body} : ¬ ['*', '/'] <:+: body →
      LexicalError .unterminated_comment 0 ('/' :: '*' :: body)
  | string {t} : (∀ body rest, StringBody body → t ≠ body ++ '"' :: rest) →
      LexicalError .unterminated_string 0 ('"' :: t)
  | noDigits {c t base} : (c = 'b' ∧ base = 2 ∨ c = 'x' ∧ base = 16) →
      (∀ d r v, t = d :: r → digitOf d = some v → base ≤ v) →
      LexicalError .no_digits_following_integer_prefix 2 ('0' :: c :: t)
  | suffix {k lit v d rest} : Literal k lit v → IdentPart d →
      LexicalError .integer_suffix lit.length (lit ++ d :: rest)

end Bms.Spec
