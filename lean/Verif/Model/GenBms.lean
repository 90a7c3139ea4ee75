import Verif.Model.Tree
import Verif.Model.ExprType
import Verif.Model.TokenTables

/-!
# The generator of BMS code

Transcribes src/bmd/codegen/codegen_bms.cpp and the parts of src/bmd/codegen/generator_base.hpp that it
uses: writing a program as text.

Simplifications:
* Only the text of the output is modelled, not the spans of the `Code_String` (for these see
  Model/CodeString). Every function gives the text that it appends.
* No function of this generator returns an error, so every `Scoped_Attempt` is committed, and it is left
  out; so are the tests for errors after each call. What is left is the failed assertions: `.throws`.
* `m_depth` is an argument, as it is only changed for the time of a call. `m_start_of_line` is an argument
  and a result of the functions that may change it.
* The tree of Model/Tree has no annotations (which the generator ignores), and does not have the text of
  string literals, which are left out here.
-/

namespace Bms.GenBms

/-- `Code_Options`, src/bmd/codegen/codegen.hpp:27-48, those that matter for BMS. -/
structure Options where
  indentChar : Char := ' '
  indentSize : Nat := 4
  breakAfterFunction : Bool := false
  breakAfterIf : Bool := false
  alwaysParenthesize : Bool := false
deriving DecidableEq, Repr

/-- `bms::ast::get_expression_type`, src/bms/ast.hpp:1229-1240 with 794, 833, 886, 934, 978, 1037 and
1064. -/
def exprType : AExpr → ExprType
  | .literal .. => .literal
  | .id .. => .id
  | .conversion .. => .conversion
  | .ite .. => .if_expression
  | .binary _ _ op _ _ => op
  | .prefix _ _ op _ => op
  | .call .. => .function_call

/-- `needs_parentheses`, src/bmd/codegen/codegen_bms.cpp:105-110. -/
def needsParentheses (outer inner : ExprType) : Bool :=
  match comparePrecedence outer inner with
  | .less | .equivalent => false
  | _ => true

/-- `token_type_code_name`, as a list of characters. -/
def code (t : TokenType) : List Char := t.codeName.toList

/-- `write_infix_operator` and `write_infix_keyword`, src/bmd/codegen/generator_base.hpp:191-203. -/
def infixText (t : TokenType) : List Char := ' ' :: code t ++ [' ']

/-- `Scoped_Parenthesization`, src/bmd/codegen/generator_base.hpp:14-36. -/
def parenthesize (s : List Char) : List Char := '(' :: s ++ [')']

/-- `generate_subexpression`, src/bmd/codegen/generator_base.hpp:116-135, given the text of the
expression. -/
def sub (o : Options) (outer inner : ExprType) (s : List Char) : List Char :=
  if o.alwaysParenthesize || needsParentheses outer inner then parenthesize s else s

/-- `operator()(const Literal&)`, src/bmd/codegen/codegen_bms.cpp:499-503. -/
def literal : Option Lit → List Char
  | some .true_ => "true".toList
  | some .false_ => "false".toList
  | some (.integer x) => x
  | none => []

/-- `type_type_name`, src/bms/concrete_type.hpp:24-34. -/
def baseName : BaseType → List Char
  | .void => "Void".toList
  | .bool => "Bool".toList
  | .int => "Int".toList

mutual

/-- `generate_code` for expressions, src/bmd/codegen/codegen_bms.cpp:404-503. -/
def expr (o : Options) : AExpr → List Char
  | .literal _ _ l => literal l
  | .id _ _ x _ _ => x
  | .conversion _ _ e t => sub o .conversion (exprType e) (expr o e) ++ infixText .keyword_as ++ type o t
  | .ite _ _ l c r =>
    sub o .if_expression (exprType l) (expr o l) ++ infixText .keyword_if ++
    sub o .if_expression (exprType c) (expr o c) ++ infixText .keyword_else ++
    sub o .if_expression (exprType r) (expr o r)
  | .binary _ _ op l r =>
    sub o op (exprType l) (expr o l) ++ infixText op.token ++ sub o op (exprType r) (expr o r)
  | .prefix _ _ op e => code op.token ++ sub o op (exprType e) (expr o e)
  | .call _ _ _ x _ args => x ++ parenthesize (arguments o true args)

/-- The arguments of a call, src/bmd/codegen/codegen_bms.cpp:476-487. -/
def arguments (o : Options) (first : Bool) : List AExpr → List Char
  | [] => []
  | e :: es => (if first then [] else [',', ' ']) ++ expr o e ++ arguments o false es

/-- `operator()(const Type&)`, src/bmd/codegen/codegen_bms.cpp:186-206. -/
def type (o : Options) : AType → List Char
  | .base _ _ b => baseName b
  | .uint _ _ _ w => "Uint".toList ++ parenthesize (expr o w)

end

/-- `write_indent`, src/bmd/codegen/generator_base.hpp:173-179; `m_start_of_line` is `false`
afterwards. -/
def indent (o : Options) (depth : Nat) (startOfLine : Bool) : List Char :=
  if startOfLine then List.replicate (depth * o.indentSize) o.indentChar else []

/-- `: type`, if there is a type, src/bmd/codegen/codegen_bms.cpp:217-223 and 244-250. -/
def optType (o : Options) : Option AType → List Char
  | none => []
  | some t => ':' :: ' ' :: type o t

/-- ` = e`, if there is an initializer, src/bmd/codegen/codegen_bms.cpp:252-257. -/
def optInitializer (o : Options) : Option AExpr → List Char
  | none => []
  | some e => infixText .assign ++ expr o e

/-- The value of a `return` statement, src/bmd/codegen/codegen_bms.cpp:351-356. -/
def optValue (o : Options) : Option AExpr → List Char
  | none => []
  | some e => ' ' :: expr o e

/-- `operator()(const Const&)`, src/bmd/codegen/codegen_bms.cpp:208-233. -/
def constant (o : Options) (depth : Nat) (startOfLine : Bool) (x : Name) (t : Option AType) (e : AExpr) :
    List Char :=
  indent o depth startOfLine ++ code .keyword_const ++ ' ' :: x ++ optType o t ++ infixText .assign ++
    expr o e ++ [';']

/-- `operator()(const Static_Assert&)`, src/bmd/codegen/codegen_bms.cpp:264-280. -/
def staticAssert (o : Options) (depth : Nat) (startOfLine : Bool) (e : AExpr) : List Char :=
  indent o depth startOfLine ++ code .keyword_static_assert ++ parenthesize (expr o e) ++ [';']

/-- `control_statement_type_token`, src/bms/ast.hpp:657-666. -/
def controlToken : Control → TokenType
  | .return_ => .keyword_return
  | .break_ => .keyword_break
  | .continue_ => .keyword_continue

/-- `separate_after_if` and `separate_after_function`, src/bmd/codegen/generator_base.hpp:137-155. What
follows is a block, which does not depend on `m_start_of_line`. -/
def separate (lineBreak : Bool) : List Char := if lineBreak then ['\n'] else [' ']

/-- `get_if_block` and the like fail an assertion for nodes that are no blocks. -/
def asBlock (b : AStmt) (r : Outcome Unit (List Char × Bool)) : Outcome Unit (List Char × Bool) :=
  match b with
  | .block .. => r
  | _ => .throws

/-- `get_if<If_Statement>(else_node)`, src/bmd/codegen/codegen_bms.cpp:300. -/
def isIf : AStmt → Bool
  | .ifThen .. | .ifElse .. => true
  | _ => false

mutual

/-- `generate_code` for statements: the text and `m_start_of_line`. -/
def stmt (o : Options) (depth : Nat) (startOfLine : Bool) : AStmt → Outcome Unit (List Char × Bool)
  | .const_ _ _ x t e => .ok (constant o depth startOfLine x t e, false)
  /- `operator()(const Let&)`, src/bmd/codegen/codegen_bms.cpp:235-262. -/
  | .let_ _ _ x t e =>
    .ok (indent o depth startOfLine ++ code .keyword_let ++ ' ' :: x ++ optType o t ++
      optInitializer o e ++ [';'], false)
  | .staticAssert _ _ e => .ok (staticAssert o depth startOfLine e, false)
  /- `operator()(const If_Statement&)`, src/bmd/codegen/codegen_bms.cpp:282-320. -/
  | .ifThen _ _ c b => do
    let b ← asBlock b (stmt o depth false b)
    .ok (indent o depth startOfLine ++ code .keyword_if ++ ' ' :: expr o c ++ separate o.breakAfterIf ++ b.1,
      b.2)
  | .ifElse _ _ c b e => do
    let b ← asBlock b (stmt o depth false b)
    let head := indent o depth startOfLine ++ code .keyword_if ++ ' ' :: expr o c ++
      separate o.breakAfterIf ++ b.1
    if isIf e then
      let e ← stmt o depth false e
      .ok (head ++ indent o depth b.2 ++ code .keyword_else ++ ' ' :: e.1, e.2)
    else
      let e ← asBlock e (stmt o depth b.2 e)
      .ok (head ++ e.1, e.2)
  /- `operator()(const While_Statement&)`, src/bmd/codegen/codegen_bms.cpp:322-342. -/
  | .while_ _ _ c b => do
    let b ← asBlock b (stmt o depth false b)
    .ok (indent o depth startOfLine ++ code .keyword_while ++ ' ' :: expr o c ++
      separate o.breakAfterIf ++ b.1, b.2)
  /- `operator()(const Control_Statement&)`, src/bmd/codegen/codegen_bms.cpp:344-362. -/
  | .control _ _ c e =>
    .ok (indent o depth startOfLine ++ code (controlToken c) ++
      optValue o e ++ [';'], false)
  /- `operator()(const Assignment&)`, src/bmd/codegen/codegen_bms.cpp:364-378. -/
  | .assign _ _ x _ e =>
    .ok (indent o depth startOfLine ++ x ++ infixText .assign ++ expr o e ++ [';'], false)
  /- `operator()(const Block_Statement&)`, src/bmd/codegen/codegen_bms.cpp:380-402: `m_start_of_line` does
  not matter. -/
  | .block _ _ ss => do
    let s ← stmts o (depth + 1) ss
    .ok ('{' :: '\n' :: s ++ indent o depth true ++ ['}'], false)
  /- `operator()(const Function_Call_Expression&)`, src/bmd/codegen/codegen_bms.cpp:467-491: only if the
  call is a statement, the line is indented. -/
  | .call (.call k cv true x r args) =>
    .ok (indent o depth startOfLine ++ expr o (.call k cv true x r args), false)
  | .call e => .ok (expr o e, startOfLine)

/-- The statements of a block, src/bmd/codegen/codegen_bms.cpp:388-395. `m_start_of_line` is `true` before
and after each of them. -/
def stmts (o : Options) (depth : Nat) : List AStmt → Outcome Unit (List Char)
  | [] => .ok []
  | s :: ss => do
    let s ← stmt o depth true s
    let r ← stmts o depth ss
    .ok (s.1 ++ '\n' :: r)

end

/-- The parameters of a function, src/bmd/codegen/codegen_bms.cpp:154-170. -/
def parameters (o : Options) (first : Bool) : List AParam → List Char
  | [] => []
  | p :: ps => (if first then [] else [',', ' ']) ++ p.name ++ ':' :: ' ' :: type o p.type ++
    parameters o false ps

/-- `operator()(const Function&)`, src/bmd/codegen/codegen_bms.cpp:144-184. -/
def function (o : Options) (startOfLine : Bool) (f : AFn) : Outcome Unit (List Char × Bool) := do
  let b ← stmt o 0 false (.block f.bodyKey none f.body)
  .ok (indent o 0 startOfLine ++ code .keyword_function ++ ' ' :: f.name ++
    parenthesize (parameters o true f.params) ++ infixText .right_arrow ++ type o f.ret ++
    separate o.breakAfterFunction ++ b.1, b.2)

/-- Global declarations. -/
def decl (o : Options) (startOfLine : Bool) : ADecl → Outcome Unit (List Char × Bool)
  | .const_ _ _ x t e => .ok (constant o 0 startOfLine x t e, false)
  | .staticAssert _ _ e => .ok (staticAssert o 0 startOfLine e, false)
  | .function f => function o startOfLine f

/-- The declarations of a program, src/bmd/codegen/codegen_bms.cpp:123-136. -/
def decls (o : Options) (first : Bool) : List ADecl → Outcome Unit (List Char)
  | [] => .ok []
  | d :: ds => do
    let d ← decl o true d
    let r ← decls o false ds
    .ok ((if first then [] else ['\n', '\n']) ++ d.1 ++ r)

/-- `generate_bms_code`, src/bmd/codegen/codegen_bms.cpp:513-518, and `operator()(const Program&)`,
src/bmd/codegen/codegen_bms.cpp:119-142: the text that is appended to the output. -/
def program (o : Options) (ds : List ADecl) : Outcome Unit (List Char) := do
  let s ← decls o true ds
  .ok (s ++ ['\n'])

end Bms.GenBms
