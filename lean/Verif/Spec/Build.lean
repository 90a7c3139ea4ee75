import Verif.Model.Tree
import Verif.Spec.Grammar

/-!
# Specification: what the tree of a program stands for

`ExprIs t e`: the expression node `e` stands for the syntax tree `t`, that is, it has the same operator,
names and literals, and children that stand for the children of `t` in the same order. Annotations do
not count. Likewise for types, statements and declarations.
-/

namespace Bms.Spec

open Bms.Parse (Kind TypeType)
open Tree (node)

/-- The operation that a token stands for between two operands. -/
def binaryOperation : TokenType → Option ExprType
  | .plus => some .binary_plus
  | .minus => some .binary_minus
  | .multiplication => some .multiplication
  | .division => some .division
  | .remainder => some .remainder
  | .equals => some .equals
  | .not_equals => some .not_equals
  | .less_than => some .less_than
  | .greater_than => some .greater_than
  | .less_or_equal => some .less_or_equal
  | .greater_or_equal => some .greater_or_equal
  | .logical_and => some .logical_and
  | .logical_or => some .logical_or
  | .shift_left => some .shift_left
  | .shift_right => some .shift_right
  | .bitwise_and => some .bitwise_and
  | .bitwise_or => some .bitwise_or
  | .bitwise_xor => some .bitwise_xor
  | _ => none

/-- The operation that a token stands for in front of its operand. -/
def unaryOperation : TokenType → Option ExprType
  | .plus => some .unary_plus
  | .minus => some .unary_minus
  | .logical_not => some .logical_not
  | .bitwise_not => some .bitwise_not
  | _ => none

/-- The literal that a token with text `x` stands for; a string is no literal of the language. -/
inductive LitIs : List Char → TokenType → Option Lit → Prop
  | true_ {x} : LitIs x .keyword_true (some .true_)
  | false_ {x} : LitIs x .keyword_false (some .false_)
  | integer {x t} : t ∈ integerLiterals → LitIs x t (some (.integer x))
  | string {x} : LitIs x .string_literal none

mutual

/-- Expressions. -/
inductive ExprIs : Tree → AExpr → Prop
  | literal {k x t l} : LitIs x t l → ExprIs (node (.literal x t) []) (.literal k none l)
  | id {k x} : ExprIs (node (.id_expression x) []) (.id k none x none false)
  | conversion {k te e tt t} : ExprIs te e → TypeIs tt t →
      ExprIs (node .conversion_expression [some te, some tt]) (.conversion k none e t)
  | ite {k tl l tc c tr r} : ExprIs tl l → ExprIs tc c → ExprIs tr r →
      ExprIs (node .if_expression [some tl, some tc, some tr]) (.ite k none l c r)
  | binary {k op o tl l tr r} : binaryOperation op = some o → ExprIs tl l → ExprIs tr r →
      ExprIs (node (.binary_expression op) [some tl, some tr]) (.binary k none o l r)
  | pre {k op o te e} : unaryOperation op = some o → ExprIs te e →
      ExprIs (node (.prefix_expression op) [some te]) (.prefix k none o e)
  | call {k x args es a} : ExprsIs args es →
      ExprIs (node (.function_call_expression x false) (args ++ [a])) (.call k none false x none es)

/-- Types. -/
inductive TypeIs : Tree → AType → Prop
  | void {k} : TypeIs (node (.type .Void) [none]) (.base k none .void)
  | bool {k} : TypeIs (node (.type .Bool) [none]) (.base k none .bool)
  | int {k} : TypeIs (node (.type .Int) [none]) (.base k none .int)
  | uint {k tw w} : ExprIs tw w → TypeIs (node (.type .Uint) [some tw]) (.uint k none none w)

/-- Several expressions. -/
inductive ExprsIs : List (Option Tree) → List AExpr → Prop
  | nil : ExprsIs [] []
  | cons {t e ts es} : ExprIs t e → ExprsIs ts es → ExprsIs (some t :: ts) (e :: es)

end

/-- Parts that may be absent. -/
inductive OptIs {α : Type} (S : Tree → α → Prop) : Option Tree → Option α → Prop
  | none : OptIs S none none
  | some {t x} : S t x → OptIs S (some t) (some x)

mutual

/-- Statements; the first child of several of them are annotations. -/
inductive StmtIs : Tree → AStmt → Prop
  | const_ {k x a tt t te e} : OptIs TypeIs tt t → ExprIs te e →
      StmtIs (node (.const x) [a, tt, some te]) (.const_ k none x t e)
  | let_ {k x a tt t te e} : OptIs TypeIs tt t → OptIs ExprIs te e →
      StmtIs (node (.let x) [a, tt, te]) (.let_ k none x t e)
  | staticAssert {k te e} : ExprIs te e →
      StmtIs (node .static_assert [some te]) (.staticAssert k none e)
  | ifThen {k a tc c tt t} : ExprIs tc c → StmtIs tt t →
      StmtIs (node .if_statement [a, some tc, some tt, none]) (.ifThen k none c t)
  | ifElse {k a tc c tt t te e} : ExprIs tc c → StmtIs tt t → StmtIs te e →
      StmtIs (node .if_statement [a, some tc, some tt, some te]) (.ifElse k none c t e)
  | while_ {k a tc c tb b} : ExprIs tc c → StmtIs tb b →
      StmtIs (node .while_statement [a, some tc, some tb]) (.while_ k none c b)
  | break_ {k} : StmtIs (node .break []) (.control k none .break_ none)
  | continue_ {k} : StmtIs (node .continue []) (.control k none .continue_ none)
  | return_ {k te e} : OptIs ExprIs te e →
      StmtIs (node .return_statement [te]) (.control k none .return_ e)
  | assign {k x a te e} : ExprIs te e →
      StmtIs (node (.assignment x) [a, some te]) (.assign k none x none e)
  | block {k ts ss} : StmtsIs ts ss → StmtIs (node .block_statement ts) (.block k none ss)
  | call {k x args es a} : ExprsIs args es →
      StmtIs (node (.function_call_expression x true) (args ++ [a])) (.call (.call k none true x none es))

/-- Several statements. -/
inductive StmtsIs : List (Option Tree) → List AStmt → Prop
  | nil : StmtsIs [] []
  | cons {t s ts ss} : StmtIs t s → StmtsIs ts ss → StmtsIs (some t :: ts) (s :: ss)

end

/-- Several parameters. -/
inductive ParamsIs : List (Option Tree) → List AParam → Prop
  | nil : ParamsIs [] []
  | cons {k x tt t ts ps} : TypeIs tt t → ParamsIs ts ps →
      ParamsIs (some (node (.parameter x) [some tt]) :: ts) (⟨k, x, t⟩ :: ps)

/-- The list of parameters, which may be absent. -/
inductive ParamListIs : Option Tree → List AParam → Prop
  | none : ParamListIs none []
  | some {ts ps} : ParamsIs ts ps → ParamListIs (some (node .parameter_list ts)) ps

/-- Functions; nothing is known about them yet. -/
inductive FnIs : Tree → AFn → Prop
  | mk {k x a tps ps tr r tq q ts kb ss} : ParamListIs tps ps → TypeIs tr r → OptIs ExprIs tq q →
      StmtsIs ts ss →
      FnIs (node (.function x) [a, tps, some tr, tq, some (node .block_statement ts)])
        ⟨k, none, x, ps, r, q, kb, ss, [], false, none, .unanalyzed⟩

/-- Global declarations. -/
inductive DeclIs : Tree → ADecl → Prop
  | const_ {k x a tt t te e} : OptIs TypeIs tt t → ExprIs te e →
      DeclIs (node (.const x) [a, tt, some te]) (.const_ k none x t e)
  | staticAssert {k te e} : ExprIs te e →
      DeclIs (node .static_assert [some te]) (.staticAssert k none e)
  | function {t f} : FnIs t f → DeclIs t (.function f)

/-- Several declarations. -/
inductive DeclsIs : List (Option Tree) → List ADecl → Prop
  | nil : DeclsIs [] []
  | cons {t d ts ds} : DeclIs t d → DeclsIs ts ds → DeclsIs (some t :: ts) (d :: ds)

/-- Programs. -/
inductive ProgramIs : Tree → List ADecl → Prop
  | mk {ts ds} : DeclsIs ts ds → ProgramIs (node .program ts) ds

end Bms.Spec
