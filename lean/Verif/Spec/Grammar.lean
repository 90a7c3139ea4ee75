import Verif.Model.Parse

/-!
# The grammar of the language

The grammar of src/bms/parsing/grammar.ebnf together with the syntax trees its sentences stand for.
Departures from grammar.ebnf: a constant declaration ends with `;` (line 9 leaves it out although
the language requires it), and the unused rule `init_clause` is left out.

`lenient = true` adds two things that the parser accepts although grammar.ebnf does not have them:
arguments of a call need not be separated by commas, and a string literal is a primary expression.
-/

namespace Bms.Spec

open Bms.Parse (Kind TypeType Handle Node)

/-- A syntax tree; absent optional parts are `none`. -/
inductive Tree where
  | node (kind : Kind) (children : List (Option Tree))
deriving Repr

mutual

/-- The number of nodes. -/
def Tree.size : Tree → Nat
  | .node _ cs => 1 + sizes cs

/-- The number of nodes in a list of trees. -/
def sizes : List (Option Tree) → Nat
  | [] => 0
  | none :: ts => sizes ts
  | some t :: ts => t.size + sizes ts

end

/-- What the grammar knows about a token: its type, and its text if it is an identifier or a
literal. -/
abbrev Terminal := TokenType × List Char

/-- The types of tokens for which the text matters. -/
def textual : List TokenType :=
  [.identifier, .binary_literal, .octal_literal, .decimal_literal, .hexadecimal_literal,
   .string_literal, .keyword_true, .keyword_false]

/-- The text of a token. -/
def tokenText (src : List Char) (t : Token) : List Char := (src.drop t.pos.start).take t.length

/-- The lexeme of a token. -/
def lexeme (src : List Char) (t : Token) : Terminal :=
  (t.type, if t.type ∈ textual then tokenText src t else [])

/-- The lexemes of a token sequence: comments do not count. -/
def lexemes (src : List Char) (ts : List Token) : List Terminal :=
  (ts.filter fun t => t.type ≠ .line_comment && t.type ≠ .block_comment).map (lexeme src)

def unaryOperators : List TokenType := [.plus, .minus, .logical_not, .bitwise_not]
def arithmeticOperators : List TokenType := [.plus, .minus, .multiplication, .division, .remainder]
def comparisonOperators : List TokenType :=
  [.equals, .not_equals, .less_than, .greater_than, .less_or_equal, .greater_or_equal]
def logicalOperators : List TokenType := [.logical_and, .logical_or]
def bitwiseOperators : List TokenType :=
  [.shift_left, .shift_right, .bitwise_and, .bitwise_or, .bitwise_xor]
def binaryOperators : List TokenType :=
  arithmeticOperators ++ comparisonOperators ++ logicalOperators ++ bitwiseOperators
def integerLiterals : List TokenType :=
  [.decimal_literal, .hexadecimal_literal, .binary_literal, .octal_literal]
def booleanLiterals : List TokenType := [.keyword_true, .keyword_false]

/-- The nonterminals. `optX` is `[X]`, and `Xs` is `X, { X }`, with separating commas for
parameters and arguments. -/
inductive Sym where
  | program | declarations | declaration | const_ | let_ | function | optParameters | parameters
  | parameter | optRequires | static_assert | optAnnotations | annotations | annotation
  | annotationArguments | annotationArgument | optType | initializer
  | statements | statement | if_ | optElse | block
  | expression | conversion | ifExpression | binary | comparison | arithmetic | prefix | postfix
  | call | optArguments | arguments | primary | parenthesized | type
deriving DecidableEq, Repr

/-- A token without text. -/
abbrev tok (t : TokenType) : Terminal := (t, [])
/-- An identifier. -/
abbrev ident (x : List Char) : Terminal := (.identifier, x)

open Tree (node)

/-- `Derives lenient X w ts`: the nonterminal `X` derives the sentence `w`, which stands for the
trees `ts` (a single tree for most nonterminals). -/
inductive Derives (lenient : Bool) : Sym → List Terminal → List (Option Tree) → Prop where
  -- expressions
  | integer {t x} : t ∈ integerLiterals → Derives lenient .primary [(t, x)] [some (node (.literal x t) [])]
  | boolean {t x} : t ∈ booleanLiterals → Derives lenient .primary [(t, x)] [some (node (.literal x t) [])]
  | string {x} : lenient = true →
      Derives lenient .primary [(.string_literal, x)] [some (node (.literal x .string_literal) [])]
  | id {x} : Derives lenient .primary [ident x] [some (node (.id_expression x) [])]
  | paren {w ts} : Derives lenient .parenthesized w ts → Derives lenient .primary w ts
  | parenthesized {w ts} : Derives lenient .expression w ts →
      Derives lenient .parenthesized (tok .left_parenthesis :: w ++ [tok .right_parenthesis]) ts
  | noArguments : Derives lenient .optArguments [] []
  | someArguments {w ts} : Derives lenient .arguments w ts → Derives lenient .optArguments w ts
  | argument {w ts} : Derives lenient .expression w ts → Derives lenient .arguments w ts
  | argumentsComma {w ts w' ts'} : Derives lenient .expression w ts → Derives lenient .arguments w' ts' →
      Derives lenient .arguments (w ++ tok .comma :: w') (ts ++ ts')
  | argumentsNoComma {w ts w' ts'} : lenient = true → Derives lenient .expression w ts →
      Derives lenient .arguments w' ts' → Derives lenient .arguments (w ++ w') (ts ++ ts')
  | call {x w args wa a} : Derives lenient .optArguments w args → Derives lenient .optAnnotations wa a →
      Derives lenient .call (ident x :: tok .left_parenthesis :: w ++ tok .right_parenthesis :: wa)
        [some (node (.function_call_expression x false) (args ++ a))]
  | callPostfix {w ts} : Derives lenient .call w ts → Derives lenient .postfix w ts
  | primary {w ts} : Derives lenient .primary w ts → Derives lenient .postfix w ts
  | unary {op w ts} : op ∈ unaryOperators → Derives lenient .postfix w ts →
      Derives lenient .prefix (tok op :: w) [some (node (.prefix_expression op) ts)]
  | prefixPostfix {w ts} : Derives lenient .postfix w ts → Derives lenient .prefix w ts
  | arithmetic {op w l w' r} : op ∈ arithmeticOperators → Derives lenient .prefix w l →
      Derives lenient .prefix w' r →
      Derives lenient .arithmetic (w ++ tok op :: w') [some (node (.binary_expression op) (l ++ r))]
  | arithmeticPrefix {w ts} : Derives lenient .prefix w ts → Derives lenient .arithmetic w ts
  | comparison {op w l w' r} : op ∈ comparisonOperators → Derives lenient .arithmetic w l →
      Derives lenient .arithmetic w' r →
      Derives lenient .comparison (w ++ tok op :: w') [some (node (.binary_expression op) (l ++ r))]
  | binaryComparison {w ts} : Derives lenient .comparison w ts → Derives lenient .binary w ts
  | binary {op w l w' r} : op ∈ binaryOperators → Derives lenient .prefix w l →
      Derives lenient .prefix w' r →
      Derives lenient .binary (w ++ tok op :: w') [some (node (.binary_expression op) (l ++ r))]
  | binaryPrefix {w ts} : Derives lenient .prefix w ts → Derives lenient .binary w ts
  | ifExpression {w l w' c w'' r} : Derives lenient .binary w l → Derives lenient .binary w' c →
      Derives lenient .ifExpression w'' r →
      Derives lenient .ifExpression (w ++ tok .keyword_if :: w' ++ tok .keyword_else :: w'')
        [some (node .if_expression (l ++ c ++ r))]
  | ifBinary {w ts} : Derives lenient .binary w ts → Derives lenient .ifExpression w ts
  | conversion {w e w' t} : Derives lenient .prefix w e → Derives lenient .type w' t →
      Derives lenient .conversion (w ++ tok .keyword_as :: w') [some (node .conversion_expression (e ++ t))]
  | expressionConversion {w ts} : Derives lenient .conversion w ts → Derives lenient .expression w ts
  | expressionIf {w ts} : Derives lenient .ifExpression w ts → Derives lenient .expression w ts
  -- types
  | typeVoid : Derives lenient .type [tok .keyword_void] [some (node (.type .Void) [none])]
  | typeBool : Derives lenient .type [tok .keyword_bool] [some (node (.type .Bool) [none])]
  | typeInt : Derives lenient .type [tok .keyword_int] [some (node (.type .Int) [none])]
  | typeUint {w e} : Derives lenient .parenthesized w e →
      Derives lenient .type (tok .keyword_uint :: w) [some (node (.type .Uint) e)]
  | noType : Derives lenient .optType [] [none]
  | someType {w t} : Derives lenient .type w t → Derives lenient .optType (tok .colon :: w) t
  -- annotations
  | noAnnotations : Derives lenient .optAnnotations [] [none]
  | someAnnotations {w ts} : Derives lenient .annotations w ts →
      Derives lenient .optAnnotations w [some (node .annotation_list ts)]
  | lastAnnotation {w ts} : Derives lenient .annotation w ts → Derives lenient .annotations w ts
  | annotations {w ts w' ts'} : Derives lenient .annotation w ts → Derives lenient .annotations w' ts' →
      Derives lenient .annotations (w ++ w') (ts ++ ts')
  | annotation {x} : Derives lenient .annotation [tok .at_sign, ident x] [some (node (.annotation x) [])]
  | annotationEmpty {x} : Derives lenient .annotation
      [tok .at_sign, ident x, tok .left_parenthesis, tok .right_parenthesis]
      [some (node (.annotation x) [])]
  | annotationArgs {x w ts} : Derives lenient .annotationArguments w ts → Derives lenient .annotation
      (tok .at_sign :: ident x :: tok .left_parenthesis :: w ++ [tok .right_parenthesis])
      [some (node (.annotation x) ts)]
  | annotationArgument {w ts} : Derives lenient .annotationArgument w ts →
      Derives lenient .annotationArguments w ts
  | annotationArguments {w ts w' ts'} : Derives lenient .annotationArgument w ts →
      Derives lenient .annotationArguments w' ts' →
      Derives lenient .annotationArguments (w ++ tok .comma :: w') (ts ++ ts')
  | argumentValue {t x} : t ∈ integerLiterals ++ booleanLiterals →
      Derives lenient .annotationArgument [(t, x)] [some (node (.annotation_argument [] x t) [])]
  | argumentString {q x q'} : Derives lenient .annotationArgument [(.string_literal, q :: x ++ [q'])]
      [some (node (.annotation_argument [] x .string_literal) [])]
  | keyValue {k t x} : t ∈ integerLiterals ++ booleanLiterals →
      Derives lenient .annotationArgument [ident k, tok .assign, (t, x)]
        [some (node (.annotation_argument k x t) [])]
  | keyString {k q x q'} :
      Derives lenient .annotationArgument [ident k, tok .assign, (.string_literal, q :: x ++ [q'])]
        [some (node (.annotation_argument k x .string_literal) [])]
  -- declarations
  | initializer {w e} : Derives lenient .expression w e → Derives lenient .initializer (tok .assign :: w) e
  | const {wa a x wt t w e} : Derives lenient .optAnnotations wa a → Derives lenient .optType wt t →
      Derives lenient .initializer w e →
      Derives lenient .const_ (wa ++ tok .keyword_const :: ident x :: wt ++ w ++ [tok .semicolon])
        [some (node (.const x) (a ++ t ++ e))]
  | letType {wa a x wt t} : Derives lenient .optAnnotations wa a → Derives lenient .type wt t →
      Derives lenient .let_ (wa ++ tok .keyword_let :: ident x :: tok .colon :: wt ++ [tok .semicolon])
        [some (node (.let x) (a ++ t ++ [none]))]
  | letInit {wa a x wt t w e} : Derives lenient .optAnnotations wa a → Derives lenient .optType wt t →
      Derives lenient .initializer w e →
      Derives lenient .let_ (wa ++ tok .keyword_let :: ident x :: wt ++ w ++ [tok .semicolon])
        [some (node (.let x) (a ++ t ++ e))]
  | staticAssert {w e} : Derives lenient .parenthesized w e →
      Derives lenient .static_assert (tok .keyword_static_assert :: w ++ [tok .semicolon])
        [some (node .static_assert e)]
  | parameter {x w t} : Derives lenient .type w t →
      Derives lenient .parameter (ident x :: tok .colon :: w) [some (node (.parameter x) t)]
  | lastParameter {w ts} : Derives lenient .parameter w ts → Derives lenient .parameters w ts
  | parameters {w ts w' ts'} : Derives lenient .parameter w ts → Derives lenient .parameters w' ts' →
      Derives lenient .parameters (w ++ tok .comma :: w') (ts ++ ts')
  | noParameters : Derives lenient .optParameters [] [none]
  | someParameters {w ts} : Derives lenient .parameters w ts →
      Derives lenient .optParameters w [some (node .parameter_list ts)]
  | noRequires : Derives lenient .optRequires [] [none]
  | someRequires {w e} : Derives lenient .expression w e →
      Derives lenient .optRequires (tok .keyword_requires :: w) e
  | function {wa a x wp p wr r wq q wb b} : Derives lenient .optAnnotations wa a →
      Derives lenient .optParameters wp p → Derives lenient .type wr r → Derives lenient .optRequires wq q →
      Derives lenient .block wb b →
      Derives lenient .function (wa ++ tok .keyword_function :: ident x :: tok .left_parenthesis :: wp ++
          tok .right_parenthesis :: tok .right_arrow :: wr ++ wq ++ wb)
        [some (node (.function x) (a ++ p ++ r ++ q ++ b))]
  | declConst {w ts} : Derives lenient .const_ w ts → Derives lenient .declaration w ts
  | declFunction {w ts} : Derives lenient .function w ts → Derives lenient .declaration w ts
  | declStaticAssert {w ts} : Derives lenient .static_assert w ts → Derives lenient .declaration w ts
  | noDeclarations : Derives lenient .declarations [] []
  | declarations {w ts w' ts'} : Derives lenient .declaration w ts →
      Derives lenient .declarations w' ts' → Derives lenient .declarations (w ++ w') (ts ++ ts')
  | program {w ts w' ts'} : Derives lenient .declaration w ts → Derives lenient .declarations w' ts' →
      Derives lenient .program (w ++ w') [some (node .program (ts ++ ts'))]
  -- statements
  | stmtLet {w ts} : Derives lenient .let_ w ts → Derives lenient .statement w ts
  | stmtConst {w ts} : Derives lenient .const_ w ts → Derives lenient .statement w ts
  | stmtStaticAssert {w ts} : Derives lenient .static_assert w ts → Derives lenient .statement w ts
  | assignment {wa a x w e} : Derives lenient .optAnnotations wa a → Derives lenient .expression w e →
      Derives lenient .statement (wa ++ ident x :: tok .assign :: w ++ [tok .semicolon])
        [some (node (.assignment x) (a ++ e))]
  | callStatement {x w cs} :
      Derives lenient .call w [some (node (.function_call_expression x false) cs)] →
      Derives lenient .statement (w ++ [tok .semicolon])
        [some (node (.function_call_expression x true) cs)]
  | break_ : Derives lenient .statement [tok .keyword_break, tok .semicolon] [some (node .break [])]
  | continue_ : Derives lenient .statement [tok .keyword_continue, tok .semicolon] [some (node .continue [])]
  | returnVoid : Derives lenient .statement [tok .keyword_return, tok .semicolon]
      [some (node .return_statement [none])]
  | return_ {w e} : Derives lenient .expression w e →
      Derives lenient .statement (tok .keyword_return :: w ++ [tok .semicolon])
        [some (node .return_statement e)]
  | if_ {wa a w c wb b we e} : Derives lenient .optAnnotations wa a → Derives lenient .expression w c →
      Derives lenient .block wb b → Derives lenient .optElse we e →
      Derives lenient .if_ (wa ++ tok .keyword_if :: w ++ wb ++ we)
        [some (node .if_statement (a ++ c ++ b ++ e))]
  | noElse : Derives lenient .optElse [] [none]
  | elseIf {w ts} : Derives lenient .if_ (tok .keyword_if :: w) ts →
      Derives lenient .optElse (tok .keyword_else :: tok .keyword_if :: w) ts
  | elseBlock {w ts} : Derives lenient .block w ts → Derives lenient .optElse (tok .keyword_else :: w) ts
  | stmtIf {w ts} : Derives lenient .if_ w ts → Derives lenient .statement w ts
  | while_ {wa a w c wb b} : Derives lenient .optAnnotations wa a → Derives lenient .expression w c →
      Derives lenient .block wb b →
      Derives lenient .statement (wa ++ tok .keyword_while :: w ++ wb)
        [some (node .while_statement (a ++ c ++ b))]
  | stmtBlock {w ts} : Derives lenient .block w ts → Derives lenient .statement w ts
  | block {w ts} : Derives lenient .statements w ts →
      Derives lenient .block (tok .left_brace :: w ++ [tok .right_brace])
        [some (node .block_statement ts)]
  | noStatements : Derives lenient .statements [] []
  | statements {w ts w' ts'} : Derives lenient .statement w ts → Derives lenient .statements w' ts' →
      Derives lenient .statements (w ++ w') (ts ++ ts')

/-! ## Comparisons

To tell whether an expression is a comparison, the parser looks for a comparison operator among all
tokens up to the next `;`, `{` or `}`, and so it may take the operator of another expression for one
of its own. This does not happen in the following sequences of tokens. -/

/-- A comparison operator is not preceded by another expression at the same parenthesis depth, that
is, by a `,`, an `else` or a closed parenthesis at that depth, except if an `if` or one of `;`, `{`
and `}` is between them; and no parenthesis is closed that was not opened. `after d` tells whether
there was another expression at depth `d`. -/
def unobstructed (after : Nat → Bool) (depth : Nat) : List TokenType → Bool
  | [] => true
  | t :: ts =>
    if t = .left_parenthesis then unobstructed after (depth + 1) ts
    else if t = .right_parenthesis then
      depth ≠ 0 && unobstructed (fun d => d = depth || after d) (depth - 1) ts
    else if t = .comma ∨ t = .keyword_else then
      unobstructed (fun d => d = depth || after d) depth ts
    else if t = .keyword_if then unobstructed (fun d => d ≠ depth && after d) depth ts
    else if t = .left_brace ∨ t = .right_brace ∨ t = .semicolon then
      unobstructed (fun _ => false) depth ts
    else if t ∈ comparisonOperators then !after depth && unobstructed after depth ts
    else unobstructed after depth ts

/-- The tokens of a program have unobstructed comparisons. -/
def Unobstructed (ts : List Token) : Prop :=
  unobstructed (fun _ => false) 0 ((ts.filter fun t =>
    t.type ≠ .line_comment && t.type ≠ .block_comment).map (·.type)) = true

/-! ## Trees in a list of nodes -/

mutual

/-- The node with handle `i` is the root of the tree `t`; the handles of children are smaller. -/
inductive Reads (ns : List Node) : Nat → Tree → Prop where
  | mk {i n cs} : ns[i]? = some n → ReadsAll ns i n.children cs → Reads ns i (node n.kind cs)

/-- The handles are those of the roots of the trees, and smaller than `b`; `null` handles stand for
absent parts. -/
inductive ReadsAll (ns : List Node) : Nat → List Handle → List (Option Tree) → Prop where
  | nil {b} : ReadsAll ns b [] []
  | null {b hs ts} : ReadsAll ns b hs ts → ReadsAll ns b (none :: hs) (none :: ts)
  | child {b h t hs ts} : h < b → Reads ns h t → ReadsAll ns b hs ts →
      ReadsAll ns b (some h :: hs) (some t :: ts)

end

end Bms.Spec
