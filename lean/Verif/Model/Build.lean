import Verif.Model.Parse
import Verif.Model.Tree

/-!
# From parsed programs to the tree that analysis works on

Transcribes `Analyzed_Program::Implementation::from_parser_node_recursively` and the constructors of
nodes it uses (src/bms/ast.cpp).

Simplifications:
* The address of a new node is the handle of the parser node plus one; different handles have different
  addresses, and 0 is the address of no node.
* Annotations and source positions are left out, like in `Model/Tree.lean`.
* In C++, all children are nodes of one variant type; here, they are expressions, types or statements.
  If a child has a wrong kind or is missing, or there is no node with the handle, the model stops with
  `err`; that this does not happen for the result of the parser is part of what is proved.
* The recursion is bounded by the handle: children of parser nodes have smaller handles (C52).
-/

namespace Bms
namespace Build

open Parse (Kind Node Handle TypeType)

/-- `binary_expression_type_of_token`, src/bms/ast.cpp:17-40. -/
def binaryType : TokenType → Outcome Unit ExprType
  | .logical_and => .ok .logical_and
  | .logical_or => .ok .logical_or
  | .equals => .ok .equals
  | .not_equals => .ok .not_equals
  | .less_than => .ok .less_than
  | .greater_than => .ok .greater_than
  | .less_or_equal => .ok .less_or_equal
  | .plus => .ok .binary_plus
  | .minus => .ok .binary_minus
  | .multiplication => .ok .multiplication
  | .division => .ok .division
  | .remainder => .ok .remainder
  | .shift_left => .ok .shift_left
  | .shift_right => .ok .shift_right
  | .bitwise_and => .ok .bitwise_and
  | .bitwise_or => .ok .bitwise_or
  | .bitwise_xor => .ok .bitwise_xor
  | _ => .throws

/-- `unary_expression_type_of_token`, src/bms/ast.cpp:42-52. -/
def unaryType : TokenType → Outcome Unit ExprType
  | .plus => .ok .unary_plus
  | .minus => .ok .unary_minus
  | .logical_not => .ok .logical_not
  | .bitwise_not => .ok .bitwise_not
  | _ => .throws

/-- `Literal::Literal`, src/bms/ast.cpp:281-286, where `Lit` has the token types that analysis
distinguishes (src/bms/analyze.cpp:1078-1102). -/
def literal (text : List Char) : TokenType → Option Lit
  | .keyword_true => some .true_
  | .keyword_false => some .false_
  | .binary_literal | .octal_literal | .decimal_literal | .hexadecimal_literal => some (.integer text)
  | _ => none

/-- The address of the node that is made from the node with the handle `h`. -/
def key (h : Nat) : Key := h + 1

/-- `transform_all_children_recursively` for children that are all of one sort,
src/bms/ast.cpp:387-393. -/
def all {α : Type} (f : Nat → Outcome Unit α) : List Handle → Outcome Unit (List α)
  | [] => .ok []
  | none :: _ => .err ()
  | some h :: hs => do
    let x ← f h
    let xs ← all f hs
    .ok (x :: xs)

/-- A child that may be null, `transform_recursively`, src/bms/ast.cpp:374-379. -/
def optional {α : Type} (f : Nat → Outcome Unit α) : Handle → Outcome Unit (Option α)
  | none => .ok none
  | some h => do
    let x ← f h
    .ok (some x)

variable (ns : List Node)

/-- `Type::Type`, src/bms/ast.cpp:134-138, with the width, src/bms/ast.cpp:452-467. -/
def typeWith (expr : Nat → Outcome Unit AExpr) (h : Nat) : Outcome Unit AType :=
  match ns[h]? with
  | some ⟨_, .type .Void, [none]⟩ => .ok (.base (key h) none .void)
  | some ⟨_, .type .Bool, [none]⟩ => .ok (.base (key h) none .bool)
  | some ⟨_, .type .Int, [none]⟩ => .ok (.base (key h) none .int)
  | some ⟨_, .type .Uint, [some w]⟩ => do
    let w ← expr w
    .ok (.uint (key h) none none w)
  | _ => .err ()

/-- Expressions: src/bms/ast.cpp:452-467 with the constructors l.228-286, and calls l.491-498. -/
def expr : Nat → Nat → Outcome Unit AExpr
  | 0, _ => .err ()
  | n + 1, h =>
    match ns[h]? with
    | some ⟨_, .literal text t, []⟩ => .ok (.literal (key h) none (literal text t))
    | some ⟨_, .id_expression name, []⟩ => .ok (.id (key h) none name none false)
    | some ⟨_, .conversion_expression, [some e, some to]⟩ => do
      let e ← expr n e
      let to ← typeWith ns (expr n) to
      .ok (.conversion (key h) none e to)
    | some ⟨_, .if_expression, [some l, some c, some r]⟩ => do
      let l ← expr n l
      let c ← expr n c
      let r ← expr n r
      .ok (.ite (key h) none l c r)
    | some ⟨_, .binary_expression op, [some l, some r]⟩ => do
      let op ← binaryType op
      let l ← expr n l
      let r ← expr n r
      .ok (.binary (key h) none op l r)
    | some ⟨_, .prefix_expression op, [some e]⟩ => do
      let op ← unaryType op
      let e ← expr n e
      .ok (.prefix (key h) none op e)
    | some ⟨_, .function_call_expression name st, cs⟩ => do
      let args ← all (expr n) cs.dropLast
      .ok (.call (key h) none st name none args)
    | _ => .err ()

/-- The expression that is made from the node with the handle `h`. -/
def exprAt (h : Nat) : Outcome Unit AExpr := expr ns (h + 1) h

/-- The type that is made from the node with the handle `h`. -/
def typeAt (h : Nat) : Outcome Unit AType := typeWith ns (exprAt ns) h

/-- Statements: src/bms/ast.cpp:411-415 (`break` and `continue`), 452-467 (`static_assert` and
`return`), 469-481 (those that have annotations as first child), 483-489 (blocks), with the
constructors l.140-226. -/
def stmt : Nat → Nat → Outcome Unit AStmt
  | 0, _ => .err ()
  | n + 1, h =>
    match ns[h]? with
    | some ⟨_, .const name, [_, ty, some init]⟩ => do
      let ty ← optional (typeAt ns) ty
      let init ← exprAt ns init
      .ok (.const_ (key h) none name ty init)
    | some ⟨_, .let name, [_, ty, init]⟩ => do
      let ty ← optional (typeAt ns) ty
      let init ← optional (exprAt ns) init
      .ok (.let_ (key h) none name ty init)
    | some ⟨_, .static_assert, [some e]⟩ => do
      let e ← exprAt ns e
      .ok (.staticAssert (key h) none e)
    | some ⟨_, .if_statement, [_, some c, some t, none]⟩ => do
      let c ← exprAt ns c
      let t ← stmt n t
      .ok (.ifThen (key h) none c t)
    | some ⟨_, .if_statement, [_, some c, some t, some e]⟩ => do
      let c ← exprAt ns c
      let t ← stmt n t
      let e ← stmt n e
      .ok (.ifElse (key h) none c t e)
    | some ⟨_, .while_statement, [_, some c, some b]⟩ => do
      let c ← exprAt ns c
      let b ← stmt n b
      .ok (.while_ (key h) none c b)
    | some ⟨_, .break, []⟩ => .ok (.control (key h) none .break_ none)
    | some ⟨_, .continue, []⟩ => .ok (.control (key h) none .continue_ none)
    | some ⟨_, .return_statement, [e]⟩ => do
      let e ← optional (exprAt ns) e
      .ok (.control (key h) none .return_ e)
    | some ⟨_, .assignment name, [_, some e]⟩ => do
      let e ← exprAt ns e
      .ok (.assign (key h) none name none e)
    | some ⟨_, .block_statement, cs⟩ => do
      let ss ← all (stmt n) cs
      .ok (.block (key h) none ss)
    | some ⟨_, .function_call_expression _ _, _⟩ => do
      let e ← exprAt ns h
      .ok (.call e)
    | _ => .err ()

/-- A parameter, src/bms/ast.cpp:434-439, 56-60. -/
def param (h : Nat) : Outcome Unit AParam :=
  match ns[h]? with
  | some ⟨_, .parameter name, [some t]⟩ => do
    let t ← typeAt ns t
    .ok ⟨key h, name, t⟩
  | _ => .err ()

/-- The parameters, src/bms/ast.cpp:426-440. -/
def params : Handle → Outcome Unit (List AParam)
  | none => .ok []
  | some h =>
    match ns[h]? with
    | some ⟨_, .parameter_list, cs⟩ => all (param ns) cs
    | _ => .err ()

/-- Functions, src/bms/ast.cpp:417-450, 103-113. -/
def function (h : Nat) : Outcome Unit AFn :=
  match ns[h]? with
  | some ⟨_, .function name, [_, ps, some ret, req, some body]⟩ => do
    let ps ← params ns ps
    let ret ← typeAt ns ret
    let req ← optional (exprAt ns) req
    match ns[body]? with
    | some ⟨_, .block_statement, cs⟩ => do
      let ss ← all (stmt ns body) cs
      .ok { k := key h, cv := none, name := name, params := ps, ret := ret, requires_ := req
            bodyKey := key body, body := ss, instances := [], generic := false, address := none
            level := .unanalyzed }
    | _ => .err ()
  | _ => .err ()

/-- Global declarations: functions, and constants and static assertions, which are made like in
blocks. -/
def decl (h : Nat) : Outcome Unit ADecl :=
  match ns[h]? with
  | some ⟨_, .function _, _⟩ => do
    let f ← function ns h
    .ok (.function f)
  | some ⟨_, .const name, [_, ty, some init]⟩ => do
    let ty ← optional (typeAt ns) ty
    let init ← exprAt ns init
    .ok (.const_ (key h) none name ty init)
  | some ⟨_, .static_assert, [some e]⟩ => do
    let e ← exprAt ns e
    .ok (.staticAssert (key h) none e)
  | _ => .err ()

/-- The program, src/bms/ast.cpp:404-409, 300-311: declarations of the root. -/
def program (root : Nat) : Outcome Unit (List ADecl) :=
  match ns[root]? with
  | some ⟨_, .program, cs⟩ => all (decl ns) cs
  | _ => .err ()

end Build
end Bms
