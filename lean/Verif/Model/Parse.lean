import Verif.Model.TokenTables

/-!
# Parsing

Transcribes src/bms/parsing/parse.cpp, astp.hpp, grammar.hpp and parse_error.hpp.

The member functions of `Parser` (parse.cpp:379-1520) touch the state of the parser only through a
few operations. A member function is modelled as a program (`Prog`) built from these operations,
and `Prog.run` says what the operations do to the state. The recursion of the member functions and
their loops are cut at the cases of `Rule`: a member function gets the functions for the cases as
an argument `rec`, and `parseRule` ties the knot with a bound on the nesting depth of calls and
iterations (theorem `C42_terminates` shows the bound chosen in `parse` is never reached).

Simplifications:
* `m_pos` is represented by the tokens from `m_pos` on, `rest`.
* `Handle` (src/bms/fwd.hpp:22-25) is `Option Nat`, where `none` is `Handle::null`.
* All node types of astp.hpp have a `pos`, some data, and children; a node is these three, and
  `get_children()` of each node type gives the children in the order used here.
* A node that was passed to `push_node` by move is not used again; except for the position of the
  first declaration (parse.cpp:560), which moving the node does not change.
* Allocation does not fail, and recursion does not exhaust the call stack.
-/

namespace Bms

/-- `Local_Source_Span`, src/common/source_position.hpp:36-60. -/
structure Span where
  pos : Position
  length : Nat
deriving DecidableEq, Repr

/-- The `pos` of a token. -/
def Token.span (t : Token) : Span := ⟨t.pos, t.length⟩

/-- The token `Token {}`, src/bms/tokenization/token.hpp:13-17, whose type is the first enumerator
`identifier`, src/bms/tokenization/token_type.hpp:11-13. -/
def Token.default : Token := ⟨⟨0, 0, 0⟩, 0, .identifier⟩

namespace Parse

/-- `Grammar_Rule`, src/bms/parsing/grammar.hpp:12-61; only the rules that errors are reported
for. -/
inductive GrammarRule where
  | program_declaration | const_declaration | let_declaration | initializer | function_declaration
  | requires_clause | parameter | static_assertion | annotation | annotation_argument | statement
  | assignment_statement | function_call_statement | assignment | break_statement
  | continue_statement | return_statement | if_statement | else_statement | while_statement
  | block_statement | conversion_expression | if_expression | comparison_expression
  | function_call_expression | primary_expression | parenthesized_expression | type
deriving DecidableEq, Repr

/-- `Rule_Error`, src/bms/parsing/parse.cpp:374-377. -/
structure RuleError where
  rule : GrammarRule
  expected : List TokenType
deriving DecidableEq, Repr

/-- `Parse_Error`, src/bms/parsing/parse_error.hpp:11-22. -/
structure ParseError where
  rule : GrammarRule
  expected : List TokenType
  token : Token
deriving DecidableEq, Repr

/-- `Type_Type` as used by `astp::Type`, src/bms/parsing/astp.hpp:149-162. -/
inductive TypeType where
  | Void | Bool | Int | Uint
deriving DecidableEq, Repr

/-- The node types of src/bms/parsing/astp.hpp:56-545 with their data other than position and
children. -/
inductive Kind where
  | program
  | function (name : List Char)
  | parameter_list
  | parameter (name : List Char)
  | type (t : TypeType)
  | const (name : List Char)
  | let (name : List Char)
  | static_assert
  | annotation_list
  | annotation (name : List Char)
  | annotation_argument (key value : List Char) (type : TokenType)
  | if_statement
  | while_statement
  | break
  | continue
  | return_statement
  | assignment (name : List Char)
  | block_statement
  | conversion_expression
  | if_expression
  | binary_expression (op : TokenType)
  | prefix_expression (op : TokenType)
  | function_call_expression (name : List Char) (is_statement : Bool)
  | id_expression (name : List Char)
  | literal (text : List Char) (type : TokenType)
deriving DecidableEq, Repr

/-- `Handle`, src/bms/fwd.hpp:22-25. -/
abbrev Handle := Option Nat

/-- `Some_Node`, src/bms/parsing/astp.hpp:571-573. -/
structure Node where
  pos : Span
  kind : Kind
  children : List Handle
deriving DecidableEq, Repr

/-- The state of the parser: the tokens from `m_pos` on and the nodes of `m_program`
(parse.cpp:380-386). -/
structure State where
  rest : List Token
  nodes : List Node
deriving DecidableEq, Repr

/-- The operations that the member functions of `Parser` use. -/
inductive Prog : Type → Type 1 where
  /-- Return a value. -/
  | ret {α : Type} (a : α) : Prog α
  /-- Return a `Rule_Error`. -/
  | fail {α : Type} (e : RuleError) : Prog α
  /-- Throw an exception. -/
  | throws {α : Type} : Prog α
  /-- The bound on the nesting depth is reached. -/
  | diverge {α : Type} : Prog α
  /-- `peek_or_expect(p, increment)`. -/
  | next {α : Type} (p : TokenType → Bool) (increment : Bool) (k : Option Token → Prog α) : Prog α
  /-- `peek_n(1)`. -/
  | peek1 {α : Type} (k : Option Token → Prog α) : Prog α
  /-- `m_program.push_node(n)`. -/
  | push {α : Type} (n : Node) (k : Nat → Prog α) : Prog α
  /-- `m_program.extract(t.pos)`. -/
  | extract {α : Type} (t : Token) (k : List Char → Prog α) : Prog α
  /-- `should_binary_expression_commit_to_comparison_expression()`. -/
  | commit {α : Type} (k : Bool → Prog α) : Prog α
  /-- Evaluate `body` in a block with a `Scoped_Attempt`; a returned error counts as `false`. -/
  | attempt {α : Type} (body : Prog Bool) (k : Bool → Prog α) : Prog α
  /-- Run `body` and continue depending on whether the `Result` holds a value. -/
  | handle {α β : Type} (body : Prog β) (onError : RuleError → Prog α) (k : β → Prog α) : Prog α

/-- Sequencing: `if (!r) return r.error();` followed by the rest. -/
def Prog.bind {α β : Type} : Prog α → (α → Prog β) → Prog β
  | .ret a, f => f a
  | .fail e, _ => .fail e
  | .throws, _ => .throws
  | .diverge, _ => .diverge
  | .next p i k, f => .next p i fun t => (k t).bind f
  | .peek1 k, f => .peek1 fun t => (k t).bind f
  | .push n k, f => .push n fun h => (k h).bind f
  | .extract t k, f => .extract t fun s => (k s).bind f
  | .commit k, f => .commit fun b => (k b).bind f
  | .attempt b k, f => .attempt b fun r => (k r).bind f
  | .handle b e k, f => .handle b (fun r => (e r).bind f) fun r => (k r).bind f

instance : Monad Prog where
  pure := .ret
  bind := .bind

/-- The result of running a program: the value or the error together with the state, an exception,
or the bound on the nesting depth is reached. -/
inductive Res (α : Type) where
  | ok (a : α) (s : State)
  | err (e : RuleError) (s : State)
  | throws
  | diverge
deriving DecidableEq, Repr

/-- `skip_comments`, parse.cpp:417-422. -/
def skipComments (ts : List Token) : List Token := ts.dropWhile fun t => t.type.isComment

/-- `peek`, parse.cpp:437-440, and `eof`, parse.cpp:411-415: the token after the comments. -/
def peekToken (ts : List Token) : Option Token := (skipComments ts).head?

/-- `peek_n(1)`, parse.cpp:446-458. -/
def peekToken1 (ts : List Token) : Option Token :=
  match skipComments ts with
  | [] => none
  | _ :: ts => peekToken ts

/-- `should_binary_expression_commit_to_comparison_expression`, parse.cpp:1324-1349, with
`parenthesis_level` a 64-bit unsigned integer (`Size`, src/common/config.hpp). -/
def shouldCommit (level : UInt64) : List Token → Bool
  | [] => false
  | t :: ts =>
    match t.type with
    | .left_brace | .right_brace | .semicolon => false
    | .left_parenthesis => shouldCommit (level + 1) ts
    | .right_parenthesis => shouldCommit (level - 1) ts
    | ty =>
      if level ≠ 0 then shouldCommit level ts
      else if ty = .keyword_if then false
      else if ty.isComparisonOperator then true
      else shouldCommit level ts

/-- What the operations do. -/
def Prog.run (src : List Char) {α : Type} : Prog α → State → Res α
  | .ret a, s => .ok a s
  | .fail e, s => .err e s
  | .throws, _ => .throws
  | .diverge, _ => .diverge
  -- `peek_or_expect`, parse.cpp:424-432: `peek` skips comments
  | .next p increment k, s =>
    match skipComments s.rest with
    | [] => (k none).run src ⟨[], s.nodes⟩
    | t :: ts =>
      if p t.type then
        if increment then (k (some t)).run src ⟨ts, s.nodes⟩
        else (k (some t)).run src ⟨t :: ts, s.nodes⟩
      else (k none).run src ⟨t :: ts, s.nodes⟩
  -- `peek_n`, parse.cpp:446-458: restores `m_pos`
  | .peek1 k, s => (k (peekToken1 s.rest)).run src s
  -- `push_node`, parse.cpp:108-113
  | .push n k, s => (k s.nodes.length).run src ⟨s.rest, s.nodes ++ [n]⟩
  -- `extract`, parse.cpp:97-100; `substr` throws if the position is out of range
  | .extract t k, s =>
    if t.pos.start ≤ src.length then (k ((src.drop t.pos.start).take t.length)).run src s
    else .throws
  | .commit k, s => (k (shouldCommit 0 s.rest)).run src s
  -- `Scoped_Attempt`, parse.cpp:490-509, and `downsize_nodes`, parse.cpp:102-106
  | .attempt body k, s =>
    let leave (b : Bool) (s' : State) : Res α :=
      if s'.rest.length ≤ s.rest.length ∧ s.nodes.length ≤ s'.nodes.length then
        (k b).run src ⟨s.rest, s'.nodes.take s.nodes.length⟩
      else .throws
    match body.run src s with
    | .ok b s' => leave b s'
    | .err _ s' => leave false s'
    | .throws => .throws
    | .diverge => .diverge
  | .handle body onError k, s =>
    match body.run src s with
    | .ok a s' => (k a).run src s'
    | .err e s' => (onError e).run src s'
    | .throws => .throws
    | .diverge => .diverge

/-! ## Elementary operations -/

/-- `expect(type)`, parse.cpp:478-481. -/
def expect (t : TokenType) : Prog (Option Token) := .next (· == t) true .ret

/-- `expect(predicate)`, parse.cpp:483-486. -/
def expectIf (p : TokenType → Bool) : Prog (Option Token) := .next p true .ret

/-- `peek(type)`, parse.cpp:461-464, converted to `bool`. -/
def peek (t : TokenType) : Prog Bool := .next (· == t) false fun o => .ret o.isSome

/-- The type of the token that `peek()`, parse.cpp:437-440, returns. -/
def peekAny : Prog (Option TokenType) := .next (fun _ => true) false fun o => .ret (o.map (·.type))

/-- `const Token* t = expect(type); if (!t) return Rule_Error { rule, type };` -/
def require (rule : GrammarRule) (t : TokenType) : Prog Token := do
  match ← expect t with
  | some tok => .ret tok
  | none => .fail ⟨rule, [t]⟩

/-- `m_program.push_node(n)`, parse.cpp:108-113. -/
def push (n : Node) : Prog Handle := .push n fun h => .ret (some h)

/-- `push_or_null`, parse.cpp:532-542. -/
def pushOrNull : Option Node → Prog Handle
  | some n => push n
  | none => .ret none

/-- `m_program.extract(t.pos)`. -/
def extract (t : Token) : Prog (List Char) := .extract t .ret

/-- `BIT_MANIPULATION_ASSERT(b)`. -/
def assert (b : Bool) : Prog Unit := if b then .ret () else .throws

/-! ## Node constructors with assertions, parse.cpp:139-365 -/

/-- `Function::Function`, parse.cpp:147-160. -/
def mkFunction (pos : Span) (name : List Char) (annotations parameters ret req body : Handle) :
    Prog Node := do
  assert ret.isSome
  assert body.isSome
  return ⟨pos, .function name, [annotations, parameters, ret, req, body]⟩

/-- `Parameter::Parameter`, parse.cpp:171-177. -/
def mkParameter (pos : Span) (name : List Char) (type : Handle) : Prog Node := do
  assert type.isSome
  return ⟨pos, .parameter name, [type]⟩

/-- `Type::Type`, parse.cpp:179-185. -/
def mkType (pos : Span) (t : TypeType) (width : Handle) : Prog Node := do
  assert (t ≠ .Uint || width.isSome)
  return ⟨pos, .type t, [width]⟩

/-- `Const::Const`, parse.cpp:187-197. -/
def mkConst (pos : Span) (name : List Char) (annotations type init : Handle) : Prog Node := do
  assert init.isSome
  return ⟨pos, .const name, [annotations, type, init]⟩

/-- `Let::Let`, parse.cpp:199-209. -/
def mkLet (pos : Span) (name : List Char) (annotations type init : Handle) : Prog Node := do
  assert (type.isSome || init.isSome)
  return ⟨pos, .let name, [annotations, type, init]⟩

/-- `Static_Assert::Static_Assert`, parse.cpp:211-216. -/
def mkStaticAssert (pos : Span) (e : Handle) : Prog Node := do
  assert e.isSome
  return ⟨pos, .static_assert, [e]⟩

/-- `If_Statement::If_Statement`, parse.cpp:244-254. -/
def mkIf (pos : Span) (annotations condition ifBlock elseBlock : Handle) : Prog Node := do
  assert condition.isSome
  assert ifBlock.isSome
  return ⟨pos, .if_statement, [annotations, condition, ifBlock, elseBlock]⟩

/-- `While_Statement::While_Statement`, parse.cpp:256-265. -/
def mkWhile (pos : Span) (annotations condition block : Handle) : Prog Node := do
  assert condition.isSome
  assert block.isSome
  return ⟨pos, .while_statement, [annotations, condition, block]⟩

/-- `Assignment::Assignment`, parse.cpp:283-292. -/
def mkAssignment (pos : Span) (name : List Char) (annotations e : Handle) : Prog Node := do
  assert e.isSome
  return ⟨pos, .assignment name, [annotations, e]⟩

/-- `Conversion_Expression::Conversion_Expression`, parse.cpp:300-308. -/
def mkConversion (pos : Span) (e type : Handle) : Prog Node := do
  assert e.isSome
  assert type.isSome
  return ⟨pos, .conversion_expression, [e, type]⟩

/-- `If_Expression::If_Expression`, parse.cpp:310-317. -/
def mkIfExpression (pos : Span) (left condition right : Handle) : Prog Node := do
  assert condition.isSome
  assert left.isSome
  assert right.isSome
  return ⟨pos, .if_expression, [left, condition, right]⟩

/-- `Binary_Expression::Binary_Expression`, parse.cpp:319-329. -/
def mkBinary (pos : Span) (left right : Handle) (op : TokenType) : Prog Node := do
  assert left.isSome
  assert right.isSome
  return ⟨pos, .binary_expression op, [left, right]⟩

/-- `Prefix_Expression::Prefix_Expression`, parse.cpp:331-337. -/
def mkPrefix (pos : Span) (op : TokenType) (operand : Handle) : Prog Node := do
  assert operand.isSome
  return ⟨pos, .prefix_expression op, [operand]⟩

/-! ## The cases at which recursion and loops are cut -/

/-- The recursive member functions, and the loops with the elements collected so far. -/
inductive Rule where
  /-- `match_expression`. -/
  | expression
  /-- `match_if_expression`. -/
  | ifExpression
  /-- The loop of `match_function_call_expression`. -/
  | arguments (demand : Bool) (acc : List Handle)
  /-- The loop of `match_parameter_sequence`. -/
  | parameters (acc : List Handle)
  /-- The loop of `match_annotation_sequence`. -/
  | annotations (acc : List Handle)
  /-- The loop of `match_annotation_argument_sequence`. -/
  | annotationArguments (acc : List Handle)
  /-- `match_if_statement`. -/
  | ifStatement (annotations : Option Node)
  /-- The loop of `match_block_statement`. -/
  | statements (acc : List Handle)
  /-- The loop of `match_program`. -/
  | declarations (acc : List Handle)
deriving DecidableEq, Repr

/-- What a case returns: a node, the handles that a loop collected, or these together with the
variable `first_pos`. -/
abbrev Rule.Result : Rule → Type
  | expression | ifExpression | ifStatement _ => Node
  | arguments _ _ | annotationArguments _ | statements _ | declarations _ => List Handle
  | parameters _ | annotations _ => Span × List Handle

section
variable (rec : (r : Rule) → Prog r.Result)

/-! ## Expressions -/

/-- `match_parenthesized_expression`, parse.cpp:1476-1491. -/
def matchParenthesized : Prog Node := do
  let _ ← require .parenthesized_expression .left_parenthesis
  let e ← rec .expression
  let _ ← require .parenthesized_expression .right_parenthesis
  return e

/-- The tokens that may start a primary expression, parse.cpp:1457-1460. -/
def primaryExpected : List TokenType :=
  [.binary_literal, .octal_literal, .decimal_literal, .hexadecimal_literal, .identifier,
   .left_parenthesis]

/-- `match_primary_expression`, parse.cpp:1453-1474. -/
def matchPrimary : Prog Node := do
  match ← expectIf TokenType.isLiteral with
  | some t =>
    let text ← extract t
    return ⟨t.span, .literal text t.type, []⟩
  | none =>
  match ← expect .identifier with
  | some t =>
    let text ← extract t
    return ⟨t.span, .id_expression text, []⟩
  | none =>
    .handle (matchParenthesized rec) (fun _ => .fail ⟨.primary_expression, primaryExpected⟩) .ret

/-- `match_annotation_argument`, parse.cpp:884-915. -/
def matchAnnotationArgument : Prog Node := do
  let expectedAfterKey : List TokenType :=
    [.binary_literal, .octal_literal, .decimal_literal, .hexadecimal_literal, .string_literal,
     .keyword_true, .keyword_false]
  let key ← expect .identifier
  if key.isSome then
    let _ ← require .annotation_argument .assign
  let keyString ← (match key with
    | some k => extract k
    | none => .ret [])
  match ← expectIf TokenType.isLiteral with
  | none =>
    .fail ⟨.annotation_argument,
      if key.isSome then expectedAfterKey else .identifier :: expectedAfterKey⟩
  | some value =>
    let pos := (key.getD value).span
    let valueString ← extract value
    if value.type = .string_literal then
      assert (2 ≤ valueString.length)
      return ⟨pos, .annotation_argument keyString
        ((valueString.drop 1).take (valueString.length - 2)) value.type, []⟩
    else return ⟨pos, .annotation_argument keyString valueString value.type, []⟩

/-- The loop of `match_annotation_argument_sequence`, parse.cpp:869-878. -/
def annotationArgumentsLoop (acc : List Handle) : Prog (List Handle) := do
  let a ← matchAnnotationArgument
  let h ← push a
  match ← expect .comma with
  | some _ => rec (.annotationArguments (acc ++ [h]))
  | none => return acc ++ [h]

/-- `match_annotation_argument_sequence`, parse.cpp:866-882. -/
def matchAnnotationArgumentSequence : Prog (List Handle) := do
  let arguments ← rec (.annotationArguments [])
  assert (!arguments.isEmpty)
  return arguments

/-- The lambda in `match_annotation`, parse.cpp:852-861. -/
def matchAnnotationArguments : Prog (List Handle) := do
  match ← expect .left_parenthesis with
  | none => return []
  | some _ =>
  match ← expect .right_parenthesis with
  | some _ => return []
  | none =>
    let r ← matchAnnotationArgumentSequence rec
    let _ ← require .annotation .right_parenthesis
    return r

/-- `match_annotation`, parse.cpp:840-864; if the lambda returns an error, `*arguments` fails an
assertion (src/common/result.hpp:197-201). -/
def matchAnnotation : Prog Node := do
  let a ← require .annotation .at_sign
  let id ← require .annotation .identifier
  .handle (matchAnnotationArguments rec) (fun _ => do let _ ← extract id; .throws)
    fun arguments => do
      let name ← extract id
      return ⟨a.span, .annotation name, arguments⟩

/-- The loop of `match_annotation_sequence`, parse.cpp:824-834. -/
def annotationsLoop (acc : List Handle) : Prog (Span × List Handle) := do
  let a ← matchAnnotation rec
  let h ← push a
  if ← peek .at_sign then rec (.annotations (acc ++ [h]))
  else return (a.pos, acc ++ [h])

/-- `match_annotation_sequence`, parse.cpp:820-838. -/
def matchAnnotationSequence : Prog Node := do
  let (firstPos, annotations) ← rec (.annotations [])
  assert (!annotations.isEmpty)
  return ⟨firstPos, .annotation_list, annotations⟩

/-- The loop of `match_function_call_expression`, parse.cpp:1430-1440. -/
def argumentsLoop (demand : Bool) (acc : List Handle) : Prog (List Handle) := do
  let more : Prog (List Handle) := do
    let arg ← rec .expression
    let h ← push arg
    let comma ← expect .comma
    rec (.arguments comma.isSome (acc ++ [h]))
  if demand then more
  else
    match ← expect .right_parenthesis with
    | some _ => return acc
    | none => more

/-- `match_function_call_expression`, parse.cpp:1418-1451. -/
def matchFunctionCall : Prog Node := do
  let id ← require .function_call_expression .identifier
  let _ ← require .function_call_expression .left_parenthesis
  let arguments ← rec (.arguments false [])
  let annotations ← (do
    if ← peek .at_sign then
      let a ← matchAnnotationSequence rec
      return some a
    else return none : Prog (Option Node))
  let name ← extract id
  let h ← pushOrNull annotations
  return ⟨id.span, .function_call_expression name false, arguments ++ [h]⟩

/-- `match_postfix_expression`, parse.cpp:1407-1416. -/
def matchPostfix : Prog Node := do
  if ← peek .identifier then
    let lookahead ← (.peek1 .ret : Prog (Option Token))
    if lookahead.map (·.type) = some .left_parenthesis then matchFunctionCall rec
    else matchPrimary rec
  else matchPrimary rec

/-- `match_prefix_expression`, parse.cpp:1394-1405. -/
def matchPrefix : Prog Node := do
  match ← expectIf TokenType.isUnaryOperator with
  | some t =>
    let e ← matchPostfix rec
    let h ← push e
    mkPrefix t.span t.type h
  | none => matchPostfix rec

/-- `match_arithmetic_expression`, parse.cpp:1375-1392. -/
def matchArithmetic : Prog Node := do
  let left ← matchPrefix rec
  match ← expectIf TokenType.isArithmeticOperator with
  | none => return left
  | some op =>
    let right ← matchPrefix rec
    let l ← push left
    let r ← push right
    mkBinary op.span l r op.type

/-- The comparison operators, parse.cpp:1354-1356. -/
def comparisonExpected : List TokenType :=
  [.equals, .not_equals, .less_than, .greater_than, .less_or_equal, .greater_or_equal]

/-- `match_comparison_expression`, parse.cpp:1351-1373. -/
def matchComparison : Prog Node := do
  let left ← matchArithmetic rec
  match ← expectIf TokenType.isComparisonOperator with
  | none => .fail ⟨.comparison_expression, comparisonExpected⟩
  | some op =>
    let right ← matchArithmetic rec
    let l ← push left
    let r ← push right
    mkBinary op.span l r op.type

/-- `match_binary_expression`, parse.cpp:1232-1254. -/
def matchBinary : Prog Node := do
  if ← (.commit .ret : Prog Bool) then matchComparison rec
  else
    let left ← matchPrefix rec
    match ← expectIf TokenType.isBinaryOperator with
    | none => return left
    | some op =>
      let right ← matchPrefix rec
      let l ← push left
      let r ← push right
      mkBinary op.span l r op.type

/-- `match_if_expression`, parse.cpp:1209-1230. -/
def matchIfExpression : Prog Node := do
  let left ← matchBinary rec
  match ← expect .keyword_if with
  | none => return left
  | some _ =>
    let condition ← matchBinary rec
    let _ ← require .if_expression .keyword_else
    let right ← rec .ifExpression
    let l ← push left
    let c ← push condition
    let r ← push right
    mkIfExpression left.pos l c r

/-- `match_type`, parse.cpp:1493-1519. -/
def matchType : Prog Node := do
  match ← expect .keyword_void with
  | some t => mkType t.span .Void none
  | none =>
  match ← expect .keyword_bool with
  | some t => mkType t.span .Bool none
  | none =>
  match ← expect .keyword_int with
  | some t => mkType t.span .Int none
  | none =>
  match ← expect .keyword_uint with
  | some t =>
    let e ← matchParenthesized rec
    let h ← push e
    mkType t.span .Uint h
  | none => .fail ⟨.type, [.keyword_void, .keyword_bool, .keyword_int, .keyword_uint]⟩

/-- `match_conversion_expression`, parse.cpp:1190-1207. -/
def matchConversion : Prog Node := do
  let e ← matchPrefix rec
  let _ ← require .conversion_expression .keyword_as
  let type ← matchType rec
  let h ← push e
  let t ← push type
  mkConversion e.pos h t

/-- `match_expression`, parse.cpp:1179-1188. -/
def matchExpression : Prog Node := do
  let isConversion ← (.attempt (do let _ ← matchPrefix rec; peek .keyword_as) .ret : Prog Bool)
  if isConversion then matchConversion rec else rec .ifExpression

/-! ## Declarations and statements -/

/-- `match_initializer`, parse.cpp:685-692. -/
def matchInitializer : Prog Node := do
  let _ ← require .initializer .assign
  rec .expression

/-- The optional type of `match_let_declaration` and `match_const_declaration`, parse.cpp:624-632
and 665-673. -/
def matchOptionalType : Prog Handle := do
  match ← expect .colon with
  | some _ =>
    let type ← matchType rec
    push type
  | none => return none

/-- `match_let_declaration`, parse.cpp:609-648. -/
def matchLet (annotations : Option Node) : Prog Node := do
  let t ← require .let_declaration .keyword_let
  let id ← require .let_declaration .identifier
  let name ← extract id
  let type ← matchOptionalType rec
  let needsInit ← (if type.isNone then .ret true else peek .assign : Prog Bool)
  let init ← (do
    if needsInit then
      let init ← matchInitializer rec
      push init
    else return none : Prog Handle)
  let _ ← require .let_declaration .semicolon
  let a ← pushOrNull annotations
  mkLet t.span name a type init

/-- `match_const_declaration`, parse.cpp:650-683. -/
def matchConst (annotations : Option Node) : Prog Node := do
  let t ← require .const_declaration .keyword_const
  let id ← require .const_declaration .identifier
  let name ← extract id
  let type ← matchOptionalType rec
  let init ← matchInitializer rec
  let _ ← require .const_declaration .semicolon
  let a ← pushOrNull annotations
  let i ← push init
  mkConst t.span name a type i

/-- `match_static_assertion`, parse.cpp:792-808. -/
def matchStaticAssert : Prog Node := do
  let t ← require .static_assertion .keyword_static_assert
  let e ← matchParenthesized rec
  let _ ← require .static_assertion .semicolon
  let h ← push e
  mkStaticAssert t.span h

/-- `match_assignment`, parse.cpp:1028-1046. -/
def matchAssignment (annotations : Option Node) : Prog Node := do
  let id ← require .assignment .identifier
  let _ ← require .assignment .assign
  let e ← rec .expression
  let name ← extract id
  let a ← pushOrNull annotations
  let h ← push e
  mkAssignment id.span name a h

/-- `match_assignment_statement`, parse.cpp:1002-1013. -/
def matchAssignmentStatement (annotations : Option Node) : Prog Node := do
  let a ← matchAssignment rec annotations
  let _ ← require .assignment_statement .semicolon
  return a

/-- `match_function_call_statement`, parse.cpp:1015-1026. -/
def matchCallStatement : Prog Node := do
  let call ← matchFunctionCall rec
  let _ ← require .function_call_statement .semicolon
  return call

/-- `get<astp::Function_Call_Expression>(*r).is_statement = true`, parse.cpp:976; `get` throws for
other nodes. -/
def setIsStatement (n : Node) : Prog Node :=
  match n.kind with
  | .function_call_expression name _ => .ret ⟨n.pos, .function_call_expression name true, n.children⟩
  | _ => .throws

/-- `match_assignment_or_function_call_statement`, parse.cpp:963-979. -/
def matchAssignmentOrCall : Prog Node := do
  let t ← peekAny
  if t ≠ some .identifier then .fail ⟨.statement, [.identifier]⟩
  else
    let lookahead ← (.peek1 .ret : Prog (Option Token))
    if lookahead.map (·.type) = some .assign then matchAssignmentStatement rec none
    else
      let r ← matchCallStatement rec
      setIsStatement r

/-- `match_return_statement`, parse.cpp:1048-1067. -/
def matchReturn : Prog Node := do
  let t ← require .return_statement .keyword_return
  match ← expect .semicolon with
  | some _ => return ⟨t.span, .return_statement, [none]⟩
  | none =>
    let e ← rec .expression
    let _ ← require .return_statement .semicolon
    let h ← push e
    return ⟨t.span, .return_statement, [h]⟩

/-- `match_break_statement`, parse.cpp:1069-1080. -/
def matchBreak : Prog Node := do
  let t ← require .break_statement .keyword_break
  let _ ← require .break_statement .semicolon
  return ⟨t.span, .break, []⟩

/-- `match_continue_statement`, parse.cpp:1082-1093. -/
def matchContinue : Prog Node := do
  let t ← require .continue_statement .keyword_continue
  let _ ← require .continue_statement .semicolon
  return ⟨t.span, .continue, []⟩

/-- `match_block_statement`, parse.cpp:1156-1177. -/
def matchBlock : Prog Node := do
  let first ← require .block_statement .left_brace
  let statements ← rec (.statements [])
  return ⟨first.span, .block_statement, statements⟩

/-- `match_else_statement`, parse.cpp:1124-1133. -/
def matchElse : Prog Node := do
  let _ ← require .else_statement .keyword_else
  if ← peek .keyword_if then rec (.ifStatement none) else matchBlock rec

/-- `match_if_statement`, parse.cpp:1095-1122. -/
def matchIf (annotations : Option Node) : Prog Node := do
  let first ← require .if_statement .keyword_if
  let condition ← rec .expression
  let block ← matchBlock rec
  let elseHandle ← (do
    if ← peek .keyword_else then
      let r ← matchElse rec
      push r
    else return none : Prog Handle)
  let a ← pushOrNull annotations
  let c ← push condition
  let b ← push block
  mkIf first.span a c b elseHandle

/-- `match_while_statement`, parse.cpp:1135-1154. -/
def matchWhile (annotations : Option Node) : Prog Node := do
  let first ← require .while_statement .keyword_while
  let condition ← rec .expression
  let block ← matchBlock rec
  let a ← pushOrNull annotations
  let c ← push condition
  let b ← push block
  mkWhile first.span a c b

/-- The tokens that may follow annotations in a block, parse.cpp:984-986. -/
def annotatedStatementExpected : List TokenType :=
  [.keyword_let, .keyword_const, .keyword_if, .keyword_while, .identifier]

/-- `match_annotated_statement`, parse.cpp:981-1000. -/
def matchAnnotatedStatement (annotations : Node) : Prog Node := do
  match ← peekAny with
  | some .keyword_const => matchConst rec (some annotations)
  | some .keyword_let => matchLet rec (some annotations)
  | some .keyword_if => rec (.ifStatement (some annotations))
  | some .keyword_while => matchWhile rec (some annotations)
  | some .identifier => matchAssignmentStatement rec (some annotations)
  | _ => .fail ⟨.statement, annotatedStatementExpected⟩

/-- The tokens that may start a statement, parse.cpp:921-931. -/
def statementExpected : List TokenType :=
  [.keyword_let, .keyword_const, .keyword_static_assert, .keyword_break, .keyword_continue,
   .keyword_return, .keyword_if, .keyword_while, .left_brace, .at_sign, .identifier]

/-- `match_statement`, parse.cpp:917-961. -/
def matchStatement : Prog Node := do
  match ← peekAny with
  | some .at_sign =>
    let annotations ← matchAnnotationSequence rec
    matchAnnotatedStatement rec annotations
  | some .keyword_let => matchLet rec none
  | some .keyword_const => matchConst rec none
  | some .keyword_static_assert => matchStaticAssert rec
  | some .keyword_break => matchBreak
  | some .keyword_continue => matchContinue
  | some .keyword_return => matchReturn rec
  | some .keyword_if => rec (.ifStatement none)
  | some .keyword_while => matchWhile rec none
  | some .left_brace => matchBlock rec
  | some .identifier => matchAssignmentOrCall rec
  | _ => .fail ⟨.statement, statementExpected⟩

/-- The loop of `match_block_statement`, parse.cpp:1164-1175. -/
def statementsLoop (acc : List Handle) : Prog (List Handle) := do
  match ← expect .right_brace with
  | some _ => return acc
  | none =>
    let s ← matchStatement rec
    let h ← push s
    rec (.statements (acc ++ [h]))

/-- `match_parameter`, parse.cpp:774-790. -/
def matchParameter : Prog Node := do
  let id ← require .parameter .identifier
  let _ ← require .parameter .colon
  let type ← matchType rec
  let name ← extract id
  let h ← push type
  mkParameter id.span name h

/-- The loop of `match_parameter_sequence`, parse.cpp:758-768. -/
def parametersLoop (acc : List Handle) : Prog (Span × List Handle) := do
  let p ← matchParameter rec
  let h ← push p
  match ← expect .comma with
  | some _ => rec (.parameters (acc ++ [h]))
  | none => return (p.pos, acc ++ [h])

/-- `match_parameter_sequence`, parse.cpp:754-772. -/
def matchParameterSequence : Prog Node := do
  let (firstPos, parameters) ← rec (.parameters [])
  assert (!parameters.isEmpty)
  return ⟨firstPos, .parameter_list, parameters⟩

/-- `match_requires_clause`, parse.cpp:810-818. -/
def matchRequires : Prog Node := do
  let _ ← require .requires_clause .keyword_requires
  rec .expression

/-- `match_function_declaration`, parse.cpp:694-752. -/
def matchFunction (annotations : Option Node) : Prog Node := do
  let t ← require .function_declaration .keyword_function
  let id ← require .function_declaration .identifier
  let _ ← require .function_declaration .left_parenthesis
  let parameters ← (do
    if ← peek .right_parenthesis then return none
    else
      let r ← matchParameterSequence rec
      push r : Prog Handle)
  let _ ← require .function_declaration .right_parenthesis
  let _ ← require .function_declaration .right_arrow
  let ret ← matchType rec
  let req ← (do
    if ← peek .keyword_requires then
      let r ← matchRequires rec
      push r
    else return none : Prog Handle)
  let body ← matchBlock rec
  let name ← extract id
  let a ← pushOrNull annotations
  let r ← push ret
  let b ← push body
  mkFunction t.span name a parameters r req b

/-- `match_annotated_program_declaration`, parse.cpp:594-607. -/
def matchAnnotatedDeclaration (annotations : Node) : Prog Node := do
  if ← peek .keyword_const then matchConst rec (some annotations)
  else if ← peek .keyword_function then matchFunction rec (some annotations)
  else .fail ⟨.program_declaration, [.keyword_const, .keyword_function]⟩

/-- The tokens that may start a declaration, parse.cpp:567-569. -/
def declarationExpected : List TokenType :=
  [.keyword_const, .keyword_function, .keyword_static_assert, .at_sign]

/-- `match_program_declaration`, parse.cpp:564-592. -/
def matchDeclaration : Prog Node := do
  match ← peekAny with
  | some .at_sign =>
    let annotations ← matchAnnotationSequence rec
    matchAnnotatedDeclaration rec annotations
  | some .keyword_const => matchConst rec none
  | some .keyword_function => matchFunction rec none
  | some .keyword_static_assert => matchStaticAssert rec
  | _ => .fail ⟨.program_declaration, declarationExpected⟩

/-- The loop of `match_program`, parse.cpp:553-559. -/
def declarationsLoop (acc : List Handle) : Prog (List Handle) := do
  match ← peekAny with
  | none => return acc
  | some _ =>
    let d ← matchDeclaration rec
    let h ← push d
    rec (.declarations (acc ++ [h]))

/-- `match_program`, parse.cpp:544-562. -/
def matchProgram : Prog Node := do
  let first ← matchDeclaration rec
  let h ← push first
  let declarations ← rec (.declarations [h])
  return ⟨first.pos, .program, declarations⟩

/-- The function for each case. -/
def body : (r : Rule) → Prog r.Result
  | .expression => matchExpression rec
  | .ifExpression => matchIfExpression rec
  | .arguments demand acc => argumentsLoop rec demand acc
  | .parameters acc => parametersLoop rec acc
  | .annotations acc => annotationsLoop rec acc
  | .annotationArguments acc => annotationArgumentsLoop rec acc
  | .ifStatement annotations => matchIf rec annotations
  | .statements acc => statementsLoop rec acc
  | .declarations acc => declarationsLoop rec acc

end

/-- The functions for the cases, with nesting depth at most `n`. -/
def parseRule : Nat → (r : Rule) → Prog r.Result
  | 0 => fun _ => .diverge
  | n + 1 => body (parseRule n)

/-- The result of `parse`: the nodes and the root handle, an error, an exception, or the bound on
the nesting depth is reached. -/
inductive ParseResult where
  | ok (nodes : List Node) (root : Nat)
  | err (e : ParseError)
  | throws
  | diverge
deriving DecidableEq, Repr

/-- `Parser::operator()`, parse.cpp:395-406. -/
def finish : Res Node → ParseResult
  | .ok n s => .ok (s.nodes ++ [n]) s.nodes.length
  | .err e s => .err ⟨e.rule, e.expected, s.rest.head?.getD Token.default⟩
  | .throws => .throws
  | .diverge => .diverge

/-- `parse` for a program without nodes, parse.cpp:1524-1527. -/
def parse (src : List Char) (tokens : List Token) : ParseResult :=
  finish ((matchProgram (parseRule (3 * tokens.length + 3))).run src ⟨tokens, []⟩)

end Parse
end Bms
