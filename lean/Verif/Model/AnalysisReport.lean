import Verif.Model.Diagnostics
import Verif.Model.Compile
import Verif.Model.Annotations

/-!
# Printing of errors of analysis

Transcribes the part of src/common/diagnostics.cpp that prints errors of analysis
(`make_error_printable`, `print_printable_error`, `print_analysis_error`), the error objects of
src/bms/analysis_error.hpp with `Analysis_Error_Builder`, and every place where analysis makes an error.

Simplifications:
* An output stream is modelled as in `Model/Diagnostics.lean`.
* All positions are positions in one file; its name is given once instead of with each position.
* Which place makes an error is an input of this model; `Model/Analyze.lean`, `Model/NameLookup.lean` and
  `Model/Annotations.lean` tell when analysis fails, and with which code, but not the cause.
-/

namespace Bms

namespace Report

open Diag

/-- `Analysis_Error_Code`, src/bms/analysis_error.hpp:16-134. -/
inductive Code where
  | failed_to_define_global_const | failed_to_define_function | failed_to_define_parameter
  | failed_to_define_variable | reference_to_undefined_variable
  | assignment_of_undefined_variable | call_to_undefined_function | width_not_integer
  | width_invalid | expected_constant_expression | let_variable_in_constant_expression
  | parameter_in_constant_expression | function_in_expression | execution_error
  | evaluation_error | condition_not_bool | invalid_integer_literal | assigning_parameter
  | assigning_function | assigning_const | call_non_function | wrong_number_of_arguments
  | codegen_call_to_unanalyzed | width_deduction_from_non_uint
  | static_assert_expression_not_bool | static_assertion_failed | requires_clause_not_bool
  | requires_clause_not_satisfied | use_of_undefined_variable | use_of_undefined_constant
  | empty_return_in_non_void_function | invalid_operator | void_operation | bool_arithmetic
  | bool_bitwise | bool_relational_comparison | int_bitwise | int_logical | uint_logical
  | non_bool_logical | incompatible_types | incompatible_widths | wrong_argument_type
  | break_outside_loop | continue_outside_loop | annotation_unknown | annotation_not_applicable
  | annotation_too_many_arguments | annotation_unknown_parameter | annotation_argument_duplicate
  | annotation_argument_wrong_type | annotation_argument_wrong_value
  | annotation_missing_argument
deriving DecidableEq, Repr

/-- `Construct`, src/bms/debug_info.hpp:10-36. -/
inductive Thing where
  | program | function | parameter | type | constant | variable | static_assertion | if_statement
  | while_statement | break_statement | continue_statement | return_statement | assignment
  | block_statement | conversion_expression | if_expression | binary_expression
  | prefix_expression | function_call_expression | id_expression | literal | builtin_function
  | annotation | annotation_argument | annotation_parameter
deriving DecidableEq, Repr

/-- `Debug_Info`, src/bms/debug_info.hpp:38-63. -/
structure Info where
  thing : Thing
  pos : Option Position
  name : List Char
deriving DecidableEq, Repr

/-- `Comparison_Failure`, src/bms/comparison_failure.hpp:12-15. -/
structure Comparison where
  left : CVal
  right : CVal
  op : ExprType
deriving DecidableEq, Repr

/-- `Annotation_Parameter_Wrong_Argument`, src/bms/analysis_error.hpp:138-149. -/
structure WrongArgument where
  name : List Char
  expected : Annot.ParameterType
  actual : Annot.ParameterType
  constraints : List Char
deriving DecidableEq, Repr

/-- `m_extras`, src/bms/analysis_error.hpp:186. -/
inductive Extras where
  | none
  | comparison (c : Comparison)
  | argument (a : WrongArgument)
deriving DecidableEq, Repr

/-- `detail::Analysis_Error_Detailed_Code` and `detail::Analysis_Error_Data`,
src/bms/analysis_error.hpp:153-198. The members `evaluation` and `execution` of the union are `none` if
no value has been stored in them. -/
structure Data where
  code : Code
  evaluation : Option EvalErr := none
  execution : Option ExecErr := none
  extras : Extras := .none
  fail : Info
  cause : Option Info := none
  value : Option CVal := none
  type : Option CType := none
deriving DecidableEq, Repr

/-! ## Words -/

/-- `to_prose(bms::Analysis_Error_Code)`, diagnostics.cpp:107-223. -/
def prose : Code → String
  | .failed_to_define_global_const =>
    "A name was already in use when attempting to define a global constant."
  | .failed_to_define_function => "A name was already in use when attempting to define a function."
  | .failed_to_define_parameter =>
    "A name was already in use when attempting to define a function parameter."
  | .failed_to_define_variable => "A name was already in use when attempting to define a variable."
  | .reference_to_undefined_variable =>
    "An expression attempted to look up a variable or parameter, but it was not defined."
  | .assignment_of_undefined_variable =>
    "An assignment attempted to assign a variable which is not defined."
  | .call_to_undefined_function => "A function call to an undefined function was attempted."
  | .width_not_integer => "The width of Uint must be an integer."
  | .width_invalid => "The width of Uint must be in range [0, 128)."
  | .expected_constant_expression =>
    "Expected a constant expression, but was unable to perform constant folding."
  | .let_variable_in_constant_expression =>
    "Cannot use variables in a constant expression. Did you mean 'const'?"
  | .parameter_in_constant_expression => "Cannot use function parameters in a constant expression."
  | .function_in_expression => "Attempted to use a function in an expression as if it was a variable."
  | .execution_error => "Error in the execution of the generated code for constant-evaluated functions."
  | .evaluation_error => "Evaluation error in constant expressions or constant folding."
  | .condition_not_bool => "Condition of an if statement or while loop must be of type 'Bool'."
  | .invalid_integer_literal =>
    "The given literal is invalid, possibly because it is too large for the compiler's internal integer representation."
  | .assigning_parameter => "Cannot assign a function parameter."
  | .assigning_function => "Cannot assign a function."
  | .assigning_const => "Cannot assign a constant. Did you mean to use 'let'?"
  | .call_non_function => "Cannot call something that is not a function."
  | .wrong_number_of_arguments => "Wrong number of arguments provided to function."
  | .codegen_call_to_unanalyzed =>
    "Constant evaluation depends on a function whose definition is not yet complete."
  | .width_deduction_from_non_uint => "Cannot deduce the width of Uint from a type that is not Uint."
  | .static_assert_expression_not_bool => "The expression of a static assertion must be of type 'Bool'."
  | .static_assertion_failed => "Static assertion failed."
  | .requires_clause_not_bool => "The expression in a requires-clause must be of type 'Bool'."
  | .requires_clause_not_satisfied => "Requires-clause was not satisfied."
  | .use_of_undefined_variable => "Use of undefined variable."
  | .use_of_undefined_constant => "Use of undefined constant."
  | .empty_return_in_non_void_function => "Cannot return nothing in a non-void function."
  | .invalid_operator => "Invalid operator is used."
  | .void_operation => "Cannot perform operations for operands of type 'Void'."
  | .bool_arithmetic => "Cannot use arithmetic operators for operands of type 'Bool'."
  | .bool_bitwise => "Cannot use bitwise operators for operands of type 'Bool'."
  | .bool_relational_comparison =>
    "Cannot use relational comparisons between operands of type 'Bool'. Only logical comparisons are allowed."
  | .int_bitwise => "Cannot use bitwise operators for operands of type 'Int'."
  | .int_logical => "Cannot use logical operators for operands of type 'Int'."
  | .uint_logical => "Cannot us logical operators for operands of type 'Uint'."
  | .non_bool_logical => "Logical operators can only be applied to 'Bool'."
  | .incompatible_types => "Incompatible types for operation or conversion."
  | .incompatible_widths => "Incompatible Uint widths for operation or conversion."
  | .wrong_argument_type => "Wrong argument types for function call."
  | .break_outside_loop => "This break statement is not inside of a loop."
  | .continue_outside_loop => "This continue statement is not inside of a loop."
  | .annotation_unknown => "Unknown annotation."
  | .annotation_not_applicable => "Annotation cannot be applied to the following construct."
  | .annotation_too_many_arguments => "Too many arguments for provided for this annotation."
  | .annotation_unknown_parameter => "This argument does not match any annotation parameter."
  | .annotation_argument_duplicate => "This argument was provided twice for the same parameter."
  | .annotation_argument_wrong_type => "The argument type is invalid for the parameter."
  | .annotation_argument_wrong_value => "This argument value is not allowed."
  | .annotation_missing_argument => "The annotation is missing a required argument."

/-- `to_prose(bms::Evaluation_Error_Code)`, diagnostics.cpp:225-241. -/
def evaluationProse : EvalErr → String
  | .type_error => "The evaluation violates the type system."
  | .division_by_zero => "Division by zero."
  | .shift_too_much => "Bit-shift was not less than the operand size."
  | .assertion_fail => "Assertion failed."
  | .int_to_uint_range_error => "Conversion from Int to Uint would lose information."

/-- `to_prose(bms::Execution_Error_Code)`, diagnostics.cpp:243-267. -/
def executionProse : ExecErr → String
  | .load_uninitialized => "Load from uninitialized variable."
  | .pop => "Pop from empty stack."
  | .pop_call => "Return from outside a function."
  | .evaluation _ => "Error in evaluation of operator."
  | .jump_out_of_program => "Jump to address which is outside the program."
  | .jump_if_not_bool => "Condition of Jump_If instruction is not of type 'Bool'."
  | .symbolic_jump => "Execution of a symbolic jump."
  | .call_out_of_program => "Call of a function address which is outside the program."
  | .infinite_loop => "Infinite loop in VM execution."

/-- `cause_to_prose`, diagnostics.cpp:327-388. -/
def causeProse : Code → String
  | .failed_to_define_global_const
  | .failed_to_define_function
  | .failed_to_define_parameter
  | .failed_to_define_variable =>
    "An entity with the same name is already defined here:"
  | .width_not_integer => "The following expression must be of type 'Int':"
  | .width_invalid => "The following expression results in invalid width:"
  | .let_variable_in_constant_expression => "The referenced variable is declared 'let', here:"
  | .parameter_in_constant_expression => "The referenced entity is defined as a function parameter here:"
  | .function_in_expression => "The referenced entity is defined as a function here:"
  | .condition_not_bool => "The following expression must be of type 'Bool':"
  | .assigning_parameter => "The assigned parameter is defined here:"
  | .assigning_function => "The assigned function is defined here:"
  | .assigning_const => "The assigned object is declared 'const' here:"
  | .call_non_function => "The called entity is declared here:"
  | .wrong_number_of_arguments => "The arguments must match the following parameter list:"
  | .codegen_call_to_unanalyzed => "The following function was called:"
  | .width_deduction_from_non_uint => "The following expression is not of type 'Uint':"
  | .static_assert_expression_not_bool => "The following expression must be of type 'Bool':"
  | .static_assertion_failed =>
    "The following expression must evaluate to 'true', but evaluated to 'false':"
  | .requires_clause_not_bool | .requires_clause_not_satisfied =>
    "Requires-clause is attached to this function:"
  | .use_of_undefined_variable => "The following variable is undefined before its first use:"
  | .use_of_undefined_constant => "The following constant is undefined before its first use:"
  | .empty_return_in_non_void_function => "The function's return type is not declared Void:"
  | .annotation_unknown => "When applying annotation here:"
  | .annotation_not_applicable => "Annotation cannot be applied here:"
  | .annotation_too_many_arguments
  | .annotation_unknown_parameter
  | .annotation_argument_duplicate
  | .annotation_argument_wrong_type
  | .annotation_argument_wrong_value =>
    "In this annotation:"
  | _ => "Caused by:"

/-- `diagnosis_name_of(bms::Annotation_Parameter_Type)`, diagnostics.cpp:410-419. -/
def typeWords : Annot.ParameterType → String
  | .boolean => "boolean (true/false)"
  | .integer => "an integer (1, 0x1, ...)"
  | .string => "a string (\"...\")"

/-- `diagnosis_name_of(bms::Construct)`, diagnostics.cpp:421-452. -/
def thingWords : Thing → String
  | .program => "program"
  | .function => "function"
  | .parameter => "function parameter"
  | .type => "type"
  | .constant => "constant"
  | .variable => "variable"
  | .static_assertion => "static assertion"
  | .if_statement => "if-statement"
  | .while_statement => "while-statement"
  | .break_statement => "break-statement"
  | .continue_statement => "continue-statement"
  | .return_statement => "return-statement"
  | .assignment => "assignment"
  | .block_statement => "block statement"
  | .conversion_expression => "conversion expression"
  | .if_expression => "if expression"
  | .binary_expression => "binary expression"
  | .prefix_expression => "prefix unary expression"
  | .function_call_expression => "function call expression"
  | .id_expression => "id-expression"
  | .literal => "literal"
  | .builtin_function => "builtin function"
  | .annotation => "annotation"
  | .annotation_argument => "annotation argument"
  | .annotation_parameter => "annotation parameter"

/-- `value_to_string`, diagnostics.cpp:46-55. -/
def valueText (v : CVal) : Print (List Char) :=
  match v.type with
  | .void => .ok "Void".toList
  | .bool => .ok (if v.int ≠ 0 then "true".toList else "false".toList)
  | .int => .ok (toStringInt v.int)
  | .uint _ => .ok (toStringUint (toU128 v.int))

/-! ## Printable errors -/

/-- `Error_Line`, diagnostics.cpp:64-70; `Printable_Comparison`, diagnostics.cpp:59-62. -/
structure Line where
  isError : Bool
  pos : Option Position
  message : List Char
  comparison : Option (List Char × List Char × List Char) := none
  omitLine : Bool := false
deriving DecidableEq, Repr

/-- `Printable_Error`, diagnostics.cpp:72-76, without the source. -/
structure Printable where
  lines : List Line
  internal : Bool := false
deriving DecidableEq, Repr

/-- `m_cause ? m_cause->pos : …`, src/bms/analysis_error.hpp:261-264. -/
def Data.causePos (e : Data) : Option Position := e.cause.bind Info.pos

/-- `Analysis_Error::evaluation_error`, src/bms/analysis_error.hpp:224-228. To read a member of the union
that holds no value is undefined behaviour. -/
def Data.evaluationError (e : Data) : Print EvalErr :=
  if e.code = .evaluation_error then
    match e.evaluation with
    | some x => .ok x
    | none => .ub
  else .throws

/-- `Analysis_Error::execution_error`, src/bms/analysis_error.hpp:230-234. -/
def Data.executionError (e : Data) : Print ExecErr :=
  if e.code = .execution_error then
    match e.execution with
    | some x => .ok x
    | none => .ub
  else .throws

/-- `is_internal`, diagnostics.cpp:83-88. -/
def isInternal (e : Data) : Print Bool :=
  if e.code = .execution_error then .ok true
  else if e.code = .evaluation_error then do
    let x ← e.evaluationError
    return x = .type_error
  else .ok false

/-- The note for `wrong_argument()`, diagnostics.cpp:508-526. -/
def argumentLines (e : Data) : Print (List Line) :=
  match e.extras with
  | .argument a =>
    let start := "Parameter '".toList ++ a.name ++ "' must be ".toList
    match e.code with
    | .annotation_argument_wrong_type =>
      .ok [⟨false, e.fail.pos, start ++ (typeWords a.expected).toList, none, true⟩]
    | .annotation_argument_wrong_value => .ok [⟨false, e.fail.pos, start ++ a.constraints, none, true⟩]
    | _ => .throws
  | _ => .ok []

/-- The words that are added if the cause has no position, diagnostics.cpp:539-546. -/
def internalWords (c : Info) : List Char :=
  match c.pos with
  | some _ => []
  | none =>
    " (".toList ++ (thingWords c.thing).toList ++
    (if c.name.isEmpty then [] else " '".toList ++ c.name ++ ['\'']) ++ [')']

/-- The message for the cause, diagnostics.cpp:536-538. -/
def causeMessage (e : Data) : Print (List Char) :=
  if e.code = .evaluation_error then do
    let x ← e.evaluationError
    return "Caused by: ".toList ++ (evaluationProse x).toList
  else .ok (causeProse e.code).toList

/-- The note for the comparison or for the cause, diagnostics.cpp:528-549. -/
def causeLines (e : Data) : Print (List Line) :=
  match e.extras with
  | .comparison c => do
    let l ← valueText c.left
    let r ← valueText c.right
    return [⟨false, e.causePos, "Comparison evaluated to ".toList,
      some (l, c.op.token.codeName.toList, r), false⟩]
  | _ =>
    match e.cause with
    | none => .ok []
    | some c => do
      let message ← causeMessage e
      return [⟨false, c.pos, message ++ internalWords c, none, false⟩]

/-- The lines for a value that is no width, diagnostics.cpp:474-497. `as_int` (src/bms/value.hpp) asserts
that the value has the type `Int`. -/
def widthLines (e : Data) : Print (List Line) :=
  match e.value with
  | none => .throws
  | some v =>
    if v.type = .int then
      let start := "The width evaluated to ".toList ++ toStringInt v.int
      if v.int < 0 then .ok [⟨true, e.fail.pos, start ++ ", but widths must be positive.".toList, none, false⟩]
      else if v.int = 0 then
        .ok [⟨true, e.fail.pos, start ++ ", but widths shall not be zero.".toList, none, false⟩]
      else if v.int > 128 then
        .ok [⟨true, e.fail.pos, start ++ ", but the maximum allowed is 128.".toList, none, false⟩]
      else .throws
    else .throws

/-- The lines for a return statement whose expression has a wrong type, diagnostics.cpp:459-473. -/
def returnLines (e : Data) : Print (List Line) :=
  match e.cause, e.type with
  | some c, some t =>
    let isVoid := t = .void
    .ok [⟨true, e.fail.pos,
        (if isVoid then "Cannot have non-empty return statement in a function returning Void."
          else "Invalid conversion between return statement and return type.").toList, none, false⟩,
      ⟨false, c.pos,
        (if isVoid then "Did you mean to 'return;' or declare the return type 'Void'?"
          else "Return type is declared here:").toList, none, false⟩]
  | _, _ => .throws

/-- The note for errors of execution, diagnostics.cpp:503-506. -/
def executionLines (e : Data) : Print (List Line) :=
  if e.code = .execution_error then do
    let x ← e.executionError
    return [⟨false, e.fail.pos, (executionProse x).toList, none, false⟩]
  else .ok []

/-- `make_error_printable`, diagnostics.cpp:454-554. -/
def makePrintable (e : Data) : Print Printable :=
  if e.code = .incompatible_types ∧ e.fail.thing = .return_statement then do
    let ls ← returnLines e
    return ⟨ls, false⟩
  else if e.code = .width_invalid then do
    let ls ← widthLines e
    return ⟨ls, false⟩
  else do
    let ex ← executionLines e
    let args ← argumentLines e
    let cause ← causeLines e
    let internal ← isInternal e
    return ⟨⟨true, e.fail.pos, (prose e.code).toList, none, false⟩ :: ex ++ args ++ cause, internal⟩

/-- `print_source_position`, diagnostics.cpp:556-570. -/
def printSourcePosition (file : List Char) (pos : Option Position) (colors : Bool) : Out :=
  match pos with
  | none => color colors ansiBlack ++ [lit "(internal)"] ++ color colors ansiReset
  | some p => printFilePosition file p colors

/-- `ansi::h_magenta`, src/common/ansi.hpp:22. -/
def ansiHMagenta : Piece := .ansi "\x1B[0;95m".toList

/-- The comparison of a line, diagnostics.cpp:582-587. -/
def printComparison (colors : Bool) : Option (List Char × List Char × List Char) → Out
  | none => []
  | some (l, op, r) =>
    color colors ansiHMagenta ++ [.text l] ++ color colors ansiReset ++
    [lit " ", .text op, lit " "] ++
    color colors ansiHMagenta ++ [.text r] ++ color colors ansiReset

/-- The affected line, diagnostics.cpp:590-592. -/
def printQuote (source : List Char) (colors : Bool) (l : Line) : Print Out :=
  match l.pos with
  | some p => if l.omitLine then .ok [] else printAffectedLine source p colors
  | none => .ok []

/-- One line of `print_printable_error`, diagnostics.cpp:574-593. -/
def printLine (file source : List Char) (colors : Bool) (l : Line) : Print Out := do
  let quote ← printQuote source colors l
  return printSourcePosition file l.pos colors ++ [lit ": "] ++
    (if l.isError then errorPrefix else notePrefix) ++ [.text l.message] ++
    printComparison colors l.comparison ++ [lit "\n"] ++ quote

/-- The loop of `print_printable_error`. -/
def printLines (file source : List Char) (colors : Bool) : List Line → Print Out
  | [] => .ok []
  | l :: ls => do
    let a ← printLine file source colors l
    let b ← printLines file source colors ls
    return a ++ b

/-- `print_printable_error`, diagnostics.cpp:572-600. -/
def printPrintable (file source : List Char) (colors : Bool) (e : Printable) : Print Out := do
  let ls ← printLines file source colors e.lines
  return ls ++ (if e.internal then internalNotice colors else [])

/-- `print_analysis_error`, diagnostics.cpp:739-746. -/
def printAnalysisError (file source : List Char) (e : Data) (colors : Bool) : Print Out := do
  let p ← makePrintable e
  printPrintable file source colors p

/-! ## Where errors are made -/

/-- A node of the tree: what it is, its position and its name if it has one. For nodes of the tree,
`get_debug_info` (src/bms/ast.hpp) always gives a position. -/
structure Node where
  thing : Thing
  pos : Position
  name : List Char
deriving DecidableEq, Repr

def Node.info (n : Node) : Info := ⟨n.thing, some n.pos, n.name⟩

/-- Position and name of a node or parameter whose construct is known. -/
structure Place where
  pos : Position
  name : List Char
deriving DecidableEq, Repr

def Place.info (p : Place) (t : Thing) : Info := ⟨t, some p.pos, p.name⟩

/-- `Lookup_Result_Debug_Info` for a builtin function, src/bms/ast.cpp:663-666; there is one builtin
function. -/
def builtinInfo : Info := ⟨.builtin_function, none, "assert".toList⟩

/-- What a name can stand for: `Lookup_Result`. -/
inductive Entity where
  | node (n : Node)
  | parameter (p : Place)
  | builtin
deriving DecidableEq, Repr

/-- `Lookup_Result_Debug_Info`, src/bms/ast.cpp:650-667. -/
def Entity.info : Entity → Info
  | .node n => n.info
  | .parameter p => p.info .parameter
  | .builtin => builtinInfo

/-- The error codes that checks of operators give. -/
def checkCode : CheckErr → Code
  | .invalid_operator => .invalid_operator
  | .void_operation => .void_operation
  | .bool_arithmetic => .bool_arithmetic
  | .bool_bitwise => .bool_bitwise
  | .bool_relational_comparison => .bool_relational_comparison
  | .int_bitwise => .int_bitwise
  | .int_logical => .int_logical
  | .uint_logical => .uint_logical
  | .incompatible_types => .incompatible_types
  | .incompatible_widths => .incompatible_widths
  | .condition_not_bool => .condition_not_bool
  | .wrong_number_of_arguments => .wrong_number_of_arguments
  | .wrong_argument_type => .wrong_argument_type

/-- `comparison_failure(…)`, src/bms/analysis_error.hpp:348-352 and 338-340. -/
def extrasOf : Option Comparison → Extras
  | none => .none
  | some c => .comparison c

/-- `Annotation_Parameter::get_wrong_argument_info`, src/bms/analyze_annotations.cpp:85-89. The
constraints are not set. -/
def wrongArgument (name : List Char) (expected actual : Annot.ParameterType) : WrongArgument :=
  ⟨name, expected, actual, []⟩

/-- `Analysis_Error_Builder(const Execution_Error&)`, src/bms/analysis_error.hpp:326-341: if the error is
not an evaluation error, then a new `Analysis_Error_Detailed_Code` is made from the code alone
(src/bms/analysis_error.hpp:166-169), and nothing is stored in the union. -/
def executionData (e : ExecErr) (c : Option Comparison) (fail cause : Info) : Data :=
  match e with
  | .evaluation x =>
    { code := .evaluation_error, evaluation := some x, extras := extrasOf c, fail, cause := some cause }
  | _ => { code := .execution_error, extras := extrasOf c, fail, cause := some cause }

/-- The places where analysis makes errors (files of src/bms). Where the construct of a node follows from
the code at that place, only position and name are arguments. -/
inductive Site where
  /-- analyze.cpp:160 -/
  | requiresNotBool (at_ : Node) (by_ : Place)
  /-- analyze.cpp:166 -/
  | requiresFalse (at_ : Node) (by_ : Place)
  /-- analyze.cpp:224 -/
  | widthNotInteger (at_ : Node)
  /-- analyze.cpp:230 -/
  | widthInvalid (at_ : Node) (width : Int)
  /-- analyze.cpp:283 -/
  | constMismatch (at_ : Place) (by_ : Node)
  /-- analyze.cpp:291 -/
  | constConversion (e : EvalErr) (at_ : Place) (by_ : Node)
  /-- analyze.cpp:344 -/
  | letMismatch (at_ : Place) (by_ : Node)
  /-- analyze.cpp:374 -/
  | assertNotBool (at_ : Place) (by_ : Node)
  /-- analyze.cpp:380-387 -/
  | assertFalse (c : Option Comparison) (at_ : Place) (by_ : Node)
  /-- analyze.cpp:406 -/
  | ifCondition (at_ : Place) (by_ : Node)
  /-- analyze.cpp:439 -/
  | whileCondition (at_ : Place) (by_ : Node)
  /-- analyze.cpp:468 -/
  | breakOutside (at_ : Place)
  /-- analyze.cpp:468 -/
  | continueOutside (at_ : Place)
  /-- analyze.cpp:479 -/
  | emptyReturn (at_ : Place) (type : Place)
  /-- analyze.cpp:497 -/
  | returnMismatch (at_ : Place) (type : Place)
  /-- analyze.cpp:517 -/
  | assignParameter (at_ : Place) (by_ : Place)
  /-- analyze.cpp:524 -/
  | assignFunction (at_ : Place) (by_ : Place)
  /-- analyze.cpp:531 -/
  | assignConst (at_ : Place) (by_ : Place)
  /-- analyze.cpp:547 -/
  | assignMismatch (at_ : Place) (by_ : Node)
  /-- analyze.cpp:600 -/
  | conversionMismatch (at_ : Place) (type : Place)
  /-- analyze.cpp:624 -/
  | ifExprCondition (at_ : Place) (by_ : Node)
  /-- analyze.cpp:654 -/
  | ifExpr (e : CheckErr) (at_ : Place)
  /-- analyze.cpp:693 -/
  | leftNotBool (at_ : Place) (by_ : Node)
  /-- analyze.cpp:715 -/
  | binaryTypes (e : CheckErr) (at_ : Place)
  /-- analyze.cpp:721 -/
  | binaryValue (e : EvalErr) (at_ : Place)
  /-- analyze.cpp:743 -/
  | prefixType (e : CheckErr) (at_ : Place)
  /-- analyze.cpp:748 -/
  | prefixValue (e : EvalErr) (at_ : Place)
  /-- analyze.cpp:780 -/
  | builtinTypes (e : CheckErr) (at_ : Place)
  /-- analyze.cpp:787 -/
  | builtinValue (e : EvalErr) (at_ : Place)
  /-- analyze.cpp:804 -/
  | callNonFunction (at_ : Place) (by_ : Node)
  /-- analyze.cpp:817 -/
  | argumentCount (at_ : Place) (by_ : Place)
  /-- analyze.cpp:844 -/
  | deduction (at_ by_ : Node)
  /-- analyze.cpp:897 -/
  | unanalyzed (at_ : Place) (by_ : Place)
  /-- analyze.cpp:932 -/
  | argumentMismatch (at_ : Place) (by_ : Place)
  /-- analyze.cpp:942 -/
  | argumentConversion (e : EvalErr) (at_ : Place) (by_ : Place)
  /-- analyze.cpp:962; the instructions of a function have the debug information of the nodes they are
  generated for (vm/codegen.cpp) -/
  | execution (e : ExecErr) (c : Option Comparison) (at_ : Place) (by_ : Node)
  /-- analyze.cpp:994 -/
  | parameterNotConstant (at_ : Place) (by_ : Place)
  /-- analyze.cpp:1017 -/
  | functionInExpression (at_ : Place) (by_ : Place)
  /-- analyze.cpp:1024 -/
  | letNotConstant (at_ : Place) (by_ : Place)
  /-- analyze.cpp:1032 -/
  | letUndefined (at_ : Place) (by_ : Place)
  /-- analyze.cpp:1044 -/
  | constUndefined (at_ : Place) (by_ : Place)
  /-- analyze.cpp:1060 -/
  | notConstant (at_ : Place) (by_ : Node)
  /-- analyze.cpp:1093 -/
  | literal (at_ : Place)
  /-- analyze_name_lookup.cpp:76, analyze_annotations.cpp:539 -/
  | defineConst (at_ : Place) (old : Entity)
  /-- analyze_name_lookup.cpp:89, analyze_annotations.cpp:552 -/
  | defineFunction (at_ : Place) (old : Entity)
  /-- analyze_name_lookup.cpp:196 -/
  | defineParameter (at_ : Place) (old : Entity)
  /-- analyze_name_lookup.cpp:236 -/
  | defineLocalConst (at_ : Place) (old : Entity)
  /-- analyze_name_lookup.cpp:249 -/
  | defineVariable (at_ : Place) (old : Entity)
  /-- analyze_name_lookup.cpp:270 -/
  | assignUndefined (at_ : Place)
  /-- analyze_name_lookup.cpp:283 -/
  | callUndefined (at_ : Place)
  /-- analyze_name_lookup.cpp:295 -/
  | nameUndefined (at_ : Place)
  /-- analyze_annotations.cpp:236 -/
  | argumentLiteral (at_ : Place)
  /-- analyze_annotations.cpp:277 -/
  | missingParameter (at_ : Place) (parameter : List Char)
  /-- analyze_annotations.cpp:297 and 318 -/
  | tooManyArguments (at_ : Place) (by_ : Place)
  /-- analyze_annotations.cpp:308 and 318 -/
  | argumentDuplicate (at_ : Place) (by_ : Place)
  /-- analyze_annotations.cpp:313 and 318 -/
  | parameterUnknown (at_ : Place) (by_ : Place)
  /-- analyze_annotations.cpp:424 -/
  | annotationUnknown (at_ : Place) (by_ : Node)
  /-- analyze_annotations.cpp:431 -/
  | annotationNotApplicable (at_ : Place) (by_ : Node)
  /-- analyze_annotations.cpp:455 -/
  | instantiateEmpty (at_ : Place)
  /-- analyze_annotations.cpp:475 -/
  | argumentType (parameter : List Char) (expected actual : Annot.ParameterType) (at_ : Place) (by_ : Place)
  /-- analyze_annotations.cpp:490 -/
  | argumentValue (parameter : List Char) (type : Annot.ParameterType) (at_ : Place) (by_ : Place)
deriving DecidableEq, Repr

/-- The errors that are made. -/
def Site.error : Site → Data
  | .requiresNotBool at_ by_ =>
    { code := .requires_clause_not_bool, fail := at_.info, cause := some (by_.info .function) }
  | .requiresFalse at_ by_ =>
    { code := .requires_clause_not_satisfied, fail := at_.info, cause := some (by_.info .function) }
  | .widthNotInteger at_ => { code := .width_not_integer, fail := at_.info }
  | .widthInvalid at_ width => { code := .width_invalid, fail := at_.info, value := some ⟨.int, width⟩ }
  | .constMismatch at_ by_ =>
    { code := .incompatible_types, fail := at_.info .constant, cause := some by_.info }
  | .constConversion e at_ by_ =>
    { code := .evaluation_error, evaluation := some e, fail := at_.info .constant, cause := some by_.info }
  | .letMismatch at_ by_ =>
    { code := .incompatible_types, fail := at_.info .variable, cause := some by_.info }
  | .assertNotBool at_ by_ =>
    { code := .static_assert_expression_not_bool, fail := at_.info .static_assertion, cause := some by_.info }
  | .assertFalse c at_ by_ =>
    { code := .static_assertion_failed, extras := extrasOf c, fail := at_.info .static_assertion, cause := some by_.info }
  | .ifCondition at_ by_ =>
    { code := .condition_not_bool, fail := at_.info .if_statement, cause := some by_.info }
  | .whileCondition at_ by_ =>
    { code := .condition_not_bool, fail := at_.info .while_statement, cause := some by_.info }
  | .breakOutside at_ => { code := .break_outside_loop, fail := at_.info .break_statement }
  | .continueOutside at_ => { code := .continue_outside_loop, fail := at_.info .continue_statement }
  | .emptyReturn at_ type =>
    { code := .empty_return_in_non_void_function, fail := at_.info .return_statement, cause := some (type.info .type) }
  | .returnMismatch at_ type =>
    { code := .incompatible_types, fail := at_.info .return_statement, cause := some (type.info .type) }
  | .assignParameter at_ by_ =>
    { code := .assigning_parameter, fail := at_.info .assignment, cause := some (by_.info .parameter) }
  | .assignFunction at_ by_ =>
    { code := .assigning_function, fail := at_.info .assignment, cause := some (by_.info .function) }
  | .assignConst at_ by_ =>
    { code := .assigning_const, fail := at_.info .assignment, cause := some (by_.info .constant) }
  | .assignMismatch at_ by_ =>
    { code := .incompatible_types, fail := at_.info .assignment, cause := some by_.info }
  | .conversionMismatch at_ type =>
    { code := .incompatible_types, fail := at_.info .conversion_expression, cause := some (type.info .type) }
  | .ifExprCondition at_ by_ =>
    { code := .condition_not_bool, fail := at_.info .if_expression, cause := some by_.info }
  | .ifExpr e at_ => { code := checkCode e, fail := at_.info .if_expression }
  | .leftNotBool at_ by_ =>
    { code := .non_bool_logical, fail := at_.info .binary_expression, cause := some by_.info }
  | .binaryTypes e at_ => { code := checkCode e, fail := at_.info .binary_expression }
  | .binaryValue e at_ =>
    { code := .evaluation_error, evaluation := some e, fail := at_.info .binary_expression }
  | .prefixType e at_ => { code := checkCode e, fail := at_.info .prefix_expression }
  | .prefixValue e at_ =>
    { code := .evaluation_error, evaluation := some e, fail := at_.info .prefix_expression }
  | .builtinTypes e at_ =>
    { code := checkCode e, fail := at_.info .function_call_expression, cause := some builtinInfo }
  | .builtinValue e at_ =>
    { code := .evaluation_error, evaluation := some e, fail := at_.info .function_call_expression, cause := some builtinInfo }
  | .callNonFunction at_ by_ =>
    { code := .call_non_function, fail := at_.info .function_call_expression, cause := some by_.info }
  | .argumentCount at_ by_ =>
    { code := .wrong_number_of_arguments, fail := at_.info .function_call_expression, cause := some (by_.info .function) }
  | .deduction at_ by_ =>
    { code := .width_deduction_from_non_uint, fail := at_.info, cause := some by_.info }
  | .unanalyzed at_ by_ =>
    { code := .codegen_call_to_unanalyzed, fail := at_.info .function_call_expression, cause := some (by_.info .function) }
  | .argumentMismatch at_ by_ =>
    { code := .incompatible_types, fail := at_.info .function_call_expression, cause := some (by_.info .parameter) }
  | .argumentConversion e at_ by_ =>
    { code := .evaluation_error, evaluation := some e, fail := at_.info .function_call_expression, cause := some (by_.info .parameter) }
  | .execution e c at_ by_ => executionData e c (at_.info .function_call_expression) by_.info
  | .parameterNotConstant at_ by_ =>
    { code := .parameter_in_constant_expression, fail := at_.info .id_expression, cause := some (by_.info .parameter) }
  | .functionInExpression at_ by_ =>
    { code := .function_in_expression, fail := at_.info .id_expression, cause := some (by_.info .function) }
  | .letNotConstant at_ by_ =>
    { code := .let_variable_in_constant_expression, fail := at_.info .id_expression, cause := some (by_.info .variable) }
  | .letUndefined at_ by_ =>
    { code := .use_of_undefined_variable, fail := at_.info .id_expression, cause := some (by_.info .variable) }
  | .constUndefined at_ by_ =>
    { code := .use_of_undefined_constant, fail := at_.info .id_expression, cause := some (by_.info .constant) }
  | .notConstant at_ by_ =>
    { code := .expected_constant_expression, fail := at_.info .id_expression, cause := some by_.info }
  | .literal at_ => { code := .invalid_integer_literal, fail := at_.info .literal }
  | .defineConst at_ old =>
    { code := .failed_to_define_global_const, fail := at_.info .constant, cause := some old.info }
  | .defineFunction at_ old =>
    { code := .failed_to_define_function, fail := at_.info .function, cause := some old.info }
  | .defineParameter at_ old =>
    { code := .failed_to_define_parameter, fail := at_.info .parameter, cause := some old.info }
  | .defineLocalConst at_ old =>
    { code := .failed_to_define_variable, fail := at_.info .constant, cause := some old.info }
  | .defineVariable at_ old =>
    { code := .failed_to_define_variable, fail := at_.info .variable, cause := some old.info }
  | .assignUndefined at_ => { code := .assignment_of_undefined_variable, fail := at_.info .assignment }
  | .callUndefined at_ =>
    { code := .call_to_undefined_function, fail := at_.info .function_call_expression }
  | .nameUndefined at_ => { code := .reference_to_undefined_variable, fail := at_.info .id_expression }
  | .argumentLiteral at_ => { code := .invalid_integer_literal, fail := at_.info .annotation_argument }
  | .missingParameter at_ parameter =>
    { code := .annotation_missing_argument, fail := at_.info .annotation, cause := some ⟨.annotation_parameter, none, parameter⟩ }
  | .tooManyArguments at_ by_ =>
    { code := .annotation_too_many_arguments, fail := at_.info .annotation_argument, cause := some (by_.info .annotation) }
  | .argumentDuplicate at_ by_ =>
    { code := .annotation_argument_duplicate, fail := at_.info .annotation_argument, cause := some (by_.info .annotation) }
  | .parameterUnknown at_ by_ =>
    { code := .annotation_unknown_parameter, fail := at_.info .annotation_argument, cause := some (by_.info .annotation) }
  | .annotationUnknown at_ by_ =>
    { code := .annotation_unknown, fail := at_.info .annotation, cause := some by_.info }
  | .annotationNotApplicable at_ by_ =>
    { code := .annotation_not_applicable, fail := at_.info .annotation, cause := some by_.info }
  | .instantiateEmpty at_ => { code := .annotation_missing_argument, fail := at_.info .annotation }
  | .argumentType parameter expected actual at_ by_ =>
    { code := .annotation_argument_wrong_type, extras := .argument (wrongArgument parameter expected actual), fail := at_.info .annotation_argument, cause := some (by_.info .annotation) }
  | .argumentValue parameter type at_ by_ =>
    { code := .annotation_argument_wrong_value, extras := .argument (wrongArgument parameter type type), fail := at_.info .annotation_argument, cause := some (by_.info .annotation) }

end Report

end Bms
