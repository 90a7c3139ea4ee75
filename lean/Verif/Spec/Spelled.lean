import Verif.Spec.Tokens

/-!
# Specification: texts that are written with tokens
-/

namespace Bms.Spec

/-- No text that is longer than `text` and begins where it begins is a token. -/
def Maximal (text more : List Char) : Prop :=
  ∀ ty text', text' <+: text ++ more → Lexeme ty text' → text'.length ≤ text.length

/-- The text consists of the given tokens, with any amount of whitespace between them. A token ends where
no longer token can be read; no letter or digit follows a number; and `/` before `*` is no operator, but
begins a comment. Tokens of a type can only be followed by a text of which `follow` holds. -/
inductive Spelled (follow : TokenType → List Char → Prop) :
    List Char → List (TokenType × List Char) → Prop
  | nil {gap} : (∀ c ∈ gap, White c) → Spelled follow gap []
  | cons {gap text more ty items} : (∀ c ∈ gap, White c) → Lexeme ty text → Maximal text more →
      (∀ k v, Literal k text v → ∀ c ∈ more.head?, ¬ IdentPart c) →
      (ty = .division → more.head? ≠ some '*') → follow ty more →
      Spelled follow more items → Spelled follow (gap ++ text ++ more) ((ty, text) :: items)

/-- `&&` is followed by at least one space, `!` by at least two, and a block comment is not the end of the
text. -/
def Roomy (ty : TokenType) (more : List Char) : Prop :=
  (ty = .logical_and → ∃ c ∈ more.head?, White c) ∧
  (ty = .logical_not → ∃ c d r, more = c :: d :: r ∧ White c ∧ White d) ∧
  (ty = .block_comment → more ≠ [])

/-- The token has the type of the item, and covers the text of the item unless the tokenizer gives tokens
of its type a wrong length. -/
def TokenIs (src : List Char) (t : Token) (i : TokenType × List Char) : Prop :=
  t.type = i.1 ∧ (t.type ≠ .logical_and → t.type ≠ .logical_not → textOf src t = i.2)

end Bms.Spec
