import Verif.Model.GenBms
import Verif.Model.ToString

/-!
# The generator of C and C++ code

Transcribes src/bmd/codegen/codegen_c_cpp.cpp and the parts of src/bmd/codegen/generator_base.hpp that it
uses: writing a program as text in C or C++.

Simplifications:
* Only the text of the output is modelled, not the spans of the `Code_String` (for these see
  Model/CodeString). Every function gives the text that it appends if it succeeds. What is appended before
  an error does not matter: `Scoped_Attempt` takes it back, in the function itself or in the statement, the
  block, or the program around it. (`Prefix_Expression` and `Let` have no attempt of their own; no error of
  theirs is ignored.) That an attempt takes back everything that was appended is shown in Props/CodeString.
* `Generator_Error` is given without its node.
* `m_depth` is an argument, as it is only changed for the time of a call. `m_start_of_line` is an argument
  and a result of the functions that may change it.
* `lookup_result` is an address; whether it is the address of a `Const` node, and which `const_value()` this
  node has, is given by a function `cs`, which `constants` defines for a program. The type of the parent
  node of an expression is given as whether it is an expression.
-/

namespace Bms.GenC

open GenBms (exprType infixText parenthesize indent separate isIf asBlock controlToken)

/-- `Code_Options`, src/bmd/codegen/codegen.hpp:27-48. -/
structure Options extends GenBms.Options where
  c23 : Bool := false
  preferBitint : Bool := c23
deriving DecidableEq, Repr

/-- `C_Cpp_Precedence_Group`, src/bmd/codegen/codegen_c_cpp.cpp:26-41. -/
inductive Group where
  | conditional | logical_or | logical_and | bitwise_or | bitwise_xor | bitwise_and | equality | relational
  | shift | additive | multiplicative | prefix | postfix | primary
deriving DecidableEq, Repr

namespace Group

/-- `Default_Underlying(group)`. -/
def code : Group → Nat
  | conditional => 0 | logical_or => 1 | logical_and => 2 | bitwise_or => 3 | bitwise_xor => 4
  | bitwise_and => 5 | equality => 6 | relational => 7 | shift => 8 | additive => 9 | multiplicative => 10
  | «prefix» => 11 | «postfix» => 12 | primary => 13

/-- `compare_minimally`, src/bmd/codegen/codegen_c_cpp.cpp:43-46. -/
def compareMinimally (x y : Group) : POrd :=
  if x.code < y.code then .less else if x.code = y.code then .equivalent else .greater

/-- `is_binary`, src/bmd/codegen/codegen_c_cpp.cpp:48-52. -/
def isBinary (g : Group) : Bool := decide (g.code ≥ logical_or.code) && decide (g.code ≤ multiplicative.code)

/-- `is_binary_bitwise`, src/bmd/codegen/codegen_c_cpp.cpp:54-61. -/
def isBinaryBitwise (g : Group) : Bool :=
  g = shift || decide (g.code ≥ bitwise_or.code) && decide (g.code ≤ bitwise_and.code)

/-- `is_binary_logical`, src/bmd/codegen/codegen_c_cpp.cpp:63-67. -/
def isBinaryLogical (g : Group) : Bool := g = logical_and || g = logical_or

/-- `compare_readably`, src/bmd/codegen/codegen_c_cpp.cpp:69-81. -/
def compareReadably (x y : Group) : POrd :=
  if x = y then .equivalent
  else if x.isBinaryLogical && y.isBinaryLogical then .unordered
  else if x.isBinaryBitwise && y.isBinary || x.isBinary && y.isBinaryBitwise then .unordered
  else compareMinimally x y

end Group

/-- `precedence_group_of`, src/bmd/codegen/codegen_c_cpp.cpp:83-117. -/
def groupOf : ExprType → Group
  | .if_expression => .conditional
  | .logical_or => .logical_or
  | .logical_and => .logical_and
  | .bitwise_or => .bitwise_or
  | .bitwise_xor => .bitwise_xor
  | .bitwise_and => .bitwise_and
  | .equals | .not_equals => .equality
  | .less_than | .greater_than | .less_or_equal | .greater_or_equal => .relational
  | .shift_left | .shift_right => .shift
  | .binary_plus | .binary_minus => .additive
  | .multiplication | .division | .remainder => .multiplicative
  | .conversion | .unary_plus | .unary_minus | .logical_not | .bitwise_not => .prefix
  | .function_call => .postfix
  | .literal | .id => .primary

/-- `C_Cpp_Dialect`, src/bmd/codegen/codegen_c_cpp.cpp:118-125. -/
inductive Dialect where
  | c99 | c23 | cpp20
deriving DecidableEq, Repr

/-- `C_Cpp_Type` with `C_Cpp_Type_Type`, src/bmd/codegen/codegen_c_cpp.cpp:138-143; `bitint` is never
used. -/
inductive TargetType where
  | void | int | bool | uint8 | uint16 | uint32 | uint64
  | bituint (width : Nat)
deriving DecidableEq, Repr

/-- `Generator_Error_Code`, src/bmd/codegen/generator_error.hpp:8-22. -/
inductive GenError where
  | empty | unsupported_integer_width | error
deriving DecidableEq, Repr

/-- `append_value`, src/bmd/codegen/codegen_c_cpp.cpp:145-165. -/
def value (t : CType) (x : Int) : List Char :=
  match t with
  | .void => "(void)0".toList
  | .bool => if x ≠ 0 then "true".toList else "false".toList
  | .int => toStringInt x
  | .uint _ => toStringUint (toU128 x)

/-- `append_type`, src/bmd/codegen/codegen_c_cpp.cpp:167-216. -/
def typeText (d : Dialect) : TargetType → List Char
  | .void => "void".toList
  | .int => "int".toList
  | .bool => if d = .c99 then "_Bool".toList else "bool".toList
  | .uint8 => std ++ "uint8_t".toList
  | .uint16 => std ++ "uint16_t".toList
  | .uint32 => std ++ "uint32_t".toList
  | .uint64 => std ++ "uint64_t".toList
  | .bituint w => "unsigned".toList ++ ' ' :: "_BitInt".toList ++ parenthesize (stdToString w)
where
  /-- `prepend_std`, l.169-174. -/
  std : List Char := if d = .cpp20 then "std".toList ++ "::".toList else []

/-- `to_c_type`, src/bmd/codegen/codegen_c_cpp.cpp:218-249. -/
def targetType (o : Options) (d : Dialect) : CType → Outcome GenError TargetType
  | .void => .ok .void
  | .int => .ok .int
  | .bool => .ok .bool
  | .uint w =>
    let bitintAllowed := d ≠ .cpp20 ∧ o.c23 = true
    if bitintAllowed ∧ o.preferBitint = true then .ok (.bituint w)
    else if w = 8 then .ok .uint8
    else if w = 16 then .ok .uint16
    else if w = 32 then .ok .uint32
    else if w = 64 then .ok .uint64
    else if bitintAllowed then .ok (.bituint w)
    else .err .unsupported_integer_width

/-- `generate_type`, src/bmd/codegen/codegen_c_cpp.cpp:272-281. -/
def generateType (o : Options) (d : Dialect) (t : CType) : Outcome GenError (List Char) := do
  let t ← targetType o d t
  .ok (typeText d t)

/-- `operator()(const Type&)`, src/bmd/codegen/codegen_c_cpp.cpp:365-368. `value()` throws if there is no
type. -/
def type (o : Options) (d : Dialect) (t : AType) : Outcome GenError (List Char) := do
  match ← t.concreteType with
  | some t => generateType o d t
  | none => .throws

/-- `needs_parentheses`, src/bmd/codegen/codegen_c_cpp.cpp:283-289. -/
def needsParentheses (outer inner : ExprType) : Bool :=
  match Group.compareReadably (groupOf outer) (groupOf inner) with
  | .less | .equivalent => false
  | _ => true

/-- `generate_subexpression`, src/bmd/codegen/generator_base.hpp:116-135, given the text of the
expression. -/
def sub (o : Options) (outer inner : ExprType) (s : List Char) : List Char :=
  if o.alwaysParenthesize || needsParentheses outer inner then parenthesize s else s

/-- `append_value(m_out, const_value()->concrete_value())`: dereferencing an empty optional is undefined,
and `concrete_value` throws for unknown values. -/
def constValue : Option Value → Outcome GenError (List Char)
  | none => .ub
  | some ⟨_, none⟩ => .throws
  | some ⟨t, some x⟩ => .ok (value t x)

mutual

/-- `generate_code` for expressions, src/bmd/codegen/codegen_c_cpp.cpp:552-680. `inExpr` is whether the
parent node is an expression. -/
def expr (cs : Key → Option (Option Value)) (o : Options) (d : Dialect) (inExpr : Bool) :
    AExpr → Outcome GenError (List Char)
  | .literal _ cv _ => constValue cv
  | .id _ _ x ref _ =>
    match ref with
    | some (.node k) =>
      match cs k with
      | some cv => if o.c23 = true then .ok [] else constValue cv
      | none => .ok x
    | _ => .ok x
  | .conversion _ _ e t => do
    let t ← type o d t
    let s ← expr cs o d true e
    .ok (parenthesize t ++ sub o .conversion (exprType e) s)
  | .ite _ _ l c r => do
    let c' ← expr cs o d true c
    let l' ← expr cs o d true l
    let r' ← expr cs o d true r
    .ok ((if inExpr then ['('] else []) ++ sub o .if_expression (exprType c) c' ++ " ? ".toList ++
      sub o .if_expression (exprType l) l' ++ " : ".toList ++ sub o .if_expression (exprType r) r' ++
      (if inExpr then [] else [')']))
  | .binary _ _ op l r => do
    let l' ← expr cs o d true l
    let r' ← expr cs o d true r
    .ok (sub o op (exprType l) l' ++ infixText op.token ++ sub o op (exprType r) r')
  | .prefix _ _ op e => do
    let s ← expr cs o d true e
    .ok (GenBms.code op.token ++ sub o op (exprType e) s)
  | .call _ _ _ x _ args => do
    let s ← arguments cs o d true args
    .ok (x ++ parenthesize s)

/-- The arguments of a call, src/bmd/codegen/codegen_c_cpp.cpp:638-650. -/
def arguments (cs : Key → Option (Option Value)) (o : Options) (d : Dialect) (first : Bool) :
    List AExpr → Outcome GenError (List Char)
  | [] => .ok []
  | e :: es => do
    let s ← expr cs o d true e
    let r ← arguments cs o d false es
    .ok ((if first then [] else [',', ' ']) ++ s ++ r)

end

/-- `operator()(const Const&)`, src/bmd/codegen/codegen_c_cpp.cpp:370-396. -/
def constant (o : Options) (d : Dialect) (depth : Nat) (startOfLine : Bool) (cv : Option Value) (x : Name) :
    Outcome GenError (List Char) :=
  if o.c23 = true then do
    match cv with
    | none => .ub
    | some v =>
      let t ← generateType o d v.type
      let s ← constValue (some v)
      .ok (indent o.toOptions depth startOfLine ++ "constexpr".toList ++ ' ' :: t ++ ' ' :: x ++
        infixText .assign ++ s ++ [';'])
  else .err .empty

/-- ` = e`, if there is an initializer, src/bmd/codegen/codegen_c_cpp.cpp:409-414. -/
def optInitializer (cs : Key → Option (Option Value)) (o : Options) (d : Dialect) :
    Option AExpr → Outcome GenError (List Char)
  | none => .ok []
  | some e => do
    let s ← expr cs o d false e
    .ok (infixText .assign ++ s)

/-- The value of a `return` statement, src/bmd/codegen/codegen_c_cpp.cpp:496-501. -/
def optValue (cs : Key → Option (Option Value)) (o : Options) (d : Dialect) :
    Option AExpr → Outcome GenError (List Char)
  | none => .ok []
  | some e => do
    let s ← expr cs o d false e
    .ok (' ' :: s)

/-- `get_if_block` and the like fail an assertion for nodes that are no blocks. -/
def asBlockC (b : AStmt) (r : Outcome GenError (List Char × Bool)) : Outcome GenError (List Char × Bool) :=
  match b with
  | .block .. => r
  | _ => .throws

mutual

/-- `generate_code` for statements: the text and `m_start_of_line`. -/
def stmt (cs : Key → Option (Option Value)) (o : Options) (d : Dialect) (depth : Nat) (startOfLine : Bool) :
    AStmt → Outcome GenError (List Char × Bool)
  | .const_ _ cv x _ _ => do
    let s ← constant o d depth startOfLine cv x
    .ok (s, false)
  /- `operator()(const Let&)`, src/bmd/codegen/codegen_c_cpp.cpp:398-418. -/
  | .let_ _ cv x _ e =>
    match cv with
    | none => .ub
    | some v => do
      let t ← generateType o d v.type
      let i ← optInitializer cs o d e
      .ok (indent o.toOptions depth startOfLine ++ t ++ ' ' :: x ++ i ++ [';'], false)
  /- `operator()(const Static_Assert&)`, src/bmd/codegen/codegen_c_cpp.cpp:420-423. -/
  | .staticAssert .. => .err .empty
  /- `operator()(const If_Statement&)`, src/bmd/codegen/codegen_c_cpp.cpp:425-465. -/
  | .ifThen _ _ c b => do
    let c ← expr cs o d false c
    let b ← asBlockC b (stmt cs o d depth false b)
    .ok (indent o.toOptions depth startOfLine ++ "if".toList ++ ' ' :: parenthesize c ++
      separate o.breakAfterIf ++ b.1, b.2)
  | .ifElse _ _ c b e => do
    let c ← expr cs o d false c
    let b ← asBlockC b (stmt cs o d depth false b)
    let head := indent o.toOptions depth startOfLine ++ "if".toList ++ ' ' :: parenthesize c ++
      separate o.breakAfterIf ++ b.1
    if isIf e then
      let e ← stmt cs o d depth false e
      .ok (head ++ indent o.toOptions depth b.2 ++ "else".toList ++ ' ' :: e.1, e.2)
    else
      let e ← asBlockC e (stmt cs o d depth b.2 e)
      .ok (head ++ e.1, e.2)
  /- `operator()(const While_Statement&)`, src/bmd/codegen/codegen_c_cpp.cpp:467-490. -/
  | .while_ _ _ c b => do
    let c ← expr cs o d false c
    let b ← asBlockC b (stmt cs o d depth false b)
    .ok (indent o.toOptions depth startOfLine ++ "while".toList ++ ' ' :: parenthesize c ++
      separate o.breakAfterIf ++ b.1, b.2)
  /- `operator()(const Control_Statement&)`, src/bmd/codegen/codegen_c_cpp.cpp:492-510. -/
  | .control _ _ c e => do
    let e ← optValue cs o d e
    .ok (indent o.toOptions depth startOfLine ++ GenBms.code (controlToken c) ++ e ++ [';'], false)
  /- `operator()(const Assignment&)`, src/bmd/codegen/codegen_c_cpp.cpp:512-526. -/
  | .assign _ _ x _ e => do
    let s ← expr cs o d false e
    .ok (indent o.toOptions depth startOfLine ++ x ++ infixText .assign ++ s ++ [';'], false)
  /- `operator()(const Block_Statement&)`, src/bmd/codegen/codegen_c_cpp.cpp:528-550: `m_start_of_line` does
  not matter. -/
  | .block _ _ ss => do
    let s ← stmts cs o d (depth + 1) ss
    .ok ('{' :: '\n' :: s ++ indent o.toOptions depth true ++ ['}'], false)
  /- `operator()(const Function_Call_Expression&)`, src/bmd/codegen/codegen_c_cpp.cpp:630-655: only if the
  call is a statement, the line is indented. -/
  | .call (.call k cv true x r args) => do
    let s ← expr cs o d false (.call k cv true x r args)
    .ok (indent o.toOptions depth startOfLine ++ s, false)
  | .call e => do
    let s ← expr cs o d false e
    .ok (s, startOfLine)

/-- The statements of a block, src/bmd/codegen/codegen_c_cpp.cpp:536-543. `m_start_of_line` is `true` before
and after each of them: a statement that gives the error `empty` has not changed it. -/
def stmts (cs : Key → Option (Option Value)) (o : Options) (d : Dialect) (depth : Nat) :
    List AStmt → Outcome GenError (List Char)
  | [] => .ok []
  | s :: ss =>
    match stmt cs o d depth true s with
    | .ok s => do
      let r ← stmts cs o d depth ss
      .ok (s.1 ++ '\n' :: r)
    | .err .empty => stmts cs o d depth ss
    | .err e => .err e
    | .throws => .throws
    | .ub => .ub

end

/-- The parameters of a function, src/bmd/codegen/codegen_c_cpp.cpp:334-349. -/
def parameters (o : Options) (d : Dialect) (first : Bool) : List AParam → Outcome GenError (List Char)
  | [] => .ok (if first then "void".toList else [])
  | p :: ps => do
    let t ← type o d p.type
    let r ← parameters o d false ps
    .ok ((if first then [] else [',', ' ']) ++ p.name ++ ':' :: ' ' :: t ++ r)

/-- `operator()(const Function&)`, src/bmd/codegen/codegen_c_cpp.cpp:318-363. -/
def function (cs : Key → Option (Option Value)) (o : Options) (d : Dialect) (startOfLine : Bool) (f : AFn) :
    Outcome GenError (List Char × Bool) :=
  if f.generic = true then .err .empty
  else do
    let t ← type o d f.ret
    let ps ← parameters o d true f.params
    let b ← stmt cs o d 0 false (.block f.bodyKey none f.body)
    .ok (indent o.toOptions 0 startOfLine ++ t ++ ' ' :: f.name ++ parenthesize ps ++
      separate o.breakAfterFunction ++ b.1, b.2)

/-- Global declarations. -/
def decl (cs : Key → Option (Option Value)) (o : Options) (d : Dialect) (startOfLine : Bool) :
    ADecl → Outcome GenError (List Char × Bool)
  | .const_ _ cv x _ _ => do
    let s ← constant o d 0 startOfLine cv x
    .ok (s, false)
  | .staticAssert .. => .err .empty
  | .function f => function cs o d startOfLine f

/-- The declarations of a program, src/bmd/codegen/codegen_c_cpp.cpp:299-316. The end of the line is written
after the declaration, twice for all but the first. -/
def decls (cs : Key → Option (Option Value)) (o : Options) (d : Dialect) (first : Bool) :
    List ADecl → Outcome GenError (List Char)
  | [] => .ok []
  | x :: xs =>
    match decl cs o d true x with
    | .ok s => do
      let r ← decls cs o d false xs
      .ok (s.1 ++ (if first then [] else ['\n']) ++ '\n' :: r)
    | .err .empty => decls cs o d first xs
    | .err e => .err e
    | .throws => .throws
    | .ub => .ub

mutual

/-- The `Const` nodes of a statement, with their `const_value()`. -/
def constantsS : AStmt → List (Key × Option Value)
  | .const_ k cv _ _ _ => [(k, cv)]
  | .ifThen _ _ _ b => constantsS b
  | .ifElse _ _ _ b e => constantsS b ++ constantsS e
  | .while_ _ _ _ b => constantsS b
  | .block _ _ ss => constantsSs ss
  | _ => []

/-- Several statements. -/
def constantsSs : List AStmt → List (Key × Option Value)
  | [] => []
  | s :: ss => constantsS s ++ constantsSs ss

end

/-- The `Const` nodes of a program. -/
def constantNodes : List ADecl → List (Key × Option Value)
  | [] => []
  | .const_ k cv _ _ _ :: ds => (k, cv) :: constantNodes ds
  | .staticAssert .. :: ds => constantNodes ds
  | .function f :: ds => constantsSs f.body ++ constantNodes ds

/-- `get_if<Const>` for a node of the program, and `const_value()`. -/
def constants (ds : List ADecl) (k : Key) : Option (Option Value) := (constantNodes ds).lookup k

/-- `Code_Language::c` and `cpp`, src/bmd/codegen/code_language.hpp. -/
inductive Language where
  | c | cpp
deriving DecidableEq, Repr

/-- The dialect, src/bmd/codegen/codegen_c_cpp.cpp:694-696. -/
def dialect (l : Language) (o : Options) : Dialect :=
  if l = .cpp then .cpp20 else if o.c23 = true then .c23 else .c99

/-- `generate_c_code` and `generate_cpp_code`, src/bmd/codegen/codegen_c_cpp.cpp:688-712: the text that is
appended to the output. -/
def program (l : Language) (o : Options) (ds : List ADecl) : Outcome GenError (List Char) :=
  decls (constants ds) o (dialect l o) true ds

end Bms.GenC
