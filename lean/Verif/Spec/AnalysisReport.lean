import Verif.Model.AnalysisReport
import Verif.Spec.Diagnostics
import Verif.Spec.Text

/-!
# Specification: reports of errors of analysis

What a person reads on the terminal when analysis has found an error: a message with the place of the
error and its line, and then what is said about the cause.
-/

namespace Bms.Report

open Diag

/-- Something begins at this position of the text. -/
def Begins (src : List Char) (p : Position) : Prop := ∃ c cs, src.drop p.start = c :: cs ∧ c ≠ '\n'

/-- The report of an error, with the line that has the place. -/
def ErrorAt (src file : List Char) (p : Position) (message text : List Char) : Prop :=
  ∃ before line after offset, LineAt src before line after p.start offset ∧ offset < line.length ∧
    text = report file (p.line + 1) (p.column + 1) message line p.column

/-- A note, with the line that has the place. -/
def NoteAt (src file : List Char) (p : Position) (message text : List Char) : Prop :=
  ∃ before line after offset, LineAt src before line after p.start offset ∧ offset < line.length ∧
    text = place file (p.line + 1) (p.column + 1) ++ ": note: ".toList ++ message ++
      '\n' :: quotation (p.line + 1) line p.column

/-- A note without a line of the source. -/
def bareNote (file : List Char) (p : Position) (message : List Char) : List Char :=
  place file (p.line + 1) (p.column + 1) ++ ": note: ".toList ++ message ++ ['\n']

/-- A note about something that is not in the source. -/
def internalNote (message : List Char) (thing : String) (name : List Char) : List Char :=
  "(internal): note: ".toList ++ message ++ " (".toList ++ thing.toList ++ " '".toList ++ name ++ "')\n".toList

/-- The texts that stand for a value: the names of truth values, and a decimal numeral for an integer
with less than 64 bits. -/
inductive ValueText : CVal → List Char → Prop where
  | void (i : Int) : ValueText ⟨.void, i⟩ "Void".toList
  | false_ : ValueText ⟨.bool, 0⟩ "false".toList
  | true_ : ValueText ⟨.bool, 1⟩ "true".toList
  | int {n : Nat} {s : List Char} : Spec.Literal .decimal s n → ValueText ⟨.int, n⟩ s
  | negative {n : Nat} {s : List Char} : Spec.Literal .decimal s n → 0 < n → ValueText ⟨.int, -n⟩ ('-' :: s)
  | uint {w n : Nat} {s : List Char} : Spec.Literal .decimal s n → ValueText ⟨.uint w, n⟩ s

/-- The words of a report. -/
structure Words where
  /-- What is wrong. -/
  message : Code → List Char
  /-- What the cause is. -/
  cause : Code → List Char
  /-- What went wrong in an evaluation. -/
  evaluation : EvalErr → List Char
  /-- What a builtin function or a parameter of an annotation is called. -/
  thing : Thing → String
  /-- The type that an argument of an annotation must have. -/
  type : Annot.ParameterType → String

/-- Different errors have different words. -/
structure Words.Distinct (w : Words) : Prop where
  message : ∀ a b, w.message a = w.message b → a = b
  evaluation : ∀ a b, w.evaluation a = w.evaluation b → a = b
  thing : ∀ a b, w.thing a = w.thing b → a = b
  type : ∀ a b, w.type a = w.type b → a = b

/-- What is said about the cause: for an error of evaluation, what went wrong. -/
def Words.causeOf (w : Words) (e : Data) : List Char :=
  match e.evaluation with
  | some x => "Caused by: ".toList ++ w.evaluation x
  | none => w.cause e.code

/-- The notes below the message of an error. -/
inductive Notes (w : Words) (src file : List Char) (e : Data) : List Char → Prop where
  /-- Nothing is known about the cause. -/
  | nothing : e.cause = none → e.extras = .none → Notes w src file e []
  /-- The cause is in the source. -/
  | cause {c : Info} {q : Position} {text : List Char} :
    e.cause = some c → c.pos = some q → e.extras = .none → NoteAt src file q (w.causeOf e) text →
    Notes w src file e text
  /-- The cause is not in the source. -/
  | internal {c : Info} : e.cause = some c → c.pos = none → e.extras = .none → c.name ≠ [] →
    Notes w src file e (internalNote (w.causeOf e) (w.thing c.thing) c.name)
  /-- A comparison is false: the values are shown. -/
  | comparison {d : Comparison} {c : Info} {q : Position} {l r text : List Char} :
    e.extras = .comparison d → e.cause = some c → c.pos = some q → valueText d.left = .ok l →
    valueText d.right = .ok r →
    NoteAt src file q ("Comparison evaluated to ".toList ++ l ++ ' ' :: d.op.token.codeName.toList ++
      ' ' :: r) text →
    Notes w src file e text
  /-- An argument of an annotation has a wrong type: the right one is shown. -/
  | argument {a : WrongArgument} {p q : Position} {c : Info} {text : List Char} :
    e.extras = .argument a → e.code = .annotation_argument_wrong_type → e.fail.pos = some p →
    e.cause = some c → c.pos = some q → NoteAt src file q (w.causeOf e) text →
    Notes w src file e (bareNote file p ("Parameter '".toList ++ a.name ++ "' must be ".toList ++
      (w.type a.expected).toList) ++ text)
  /-- An argument of an annotation has a wrong value: nothing is shown. -/
  | value {a : WrongArgument} {p q : Position} {c : Info} {text : List Char} :
    e.extras = .argument a → e.code = .annotation_argument_wrong_value → e.fail.pos = some p →
    e.cause = some c → c.pos = some q → NoteAt src file q (w.causeOf e) text →
    Notes w src file e (bareNote file p ("Parameter '".toList ++ a.name ++ "' must be ".toList) ++ text)

/-- The positions of the error and of the cause, if there is one, are in the text. -/
structure InText (src : List Char) (e : Data) : Prop where
  fail : ∀ p, e.fail.pos = some p → Begins src p
  cause : ∀ c q, e.cause = some c → c.pos = some q → Begins src q

/-- Errors for which the report is as it should be; for the others see C81 in `Props/AnalysisReport.lean`.
Widths have a message of their own. Parameters of annotations have names. -/
def Reportable : Site → Prop
  | .returnMismatch .. => False
  | .widthInvalid .. => False
  | .execution (.evaluation _) .. => True
  | .execution .. => False
  | .missingParameter _ parameter => parameter ≠ []
  | _ => True

/-- The notice for errors of the compiler itself. -/
def notice : List Char :=
  "This is an internal error. Please report this bug at:\n".toList ++
    "https://github.com/Eisenwave/bit-manipulation/issues\n".toList

/-- The codes of the model of analysis as codes of reports. -/
def codeOf : ACode → Code
  | .failed_to_define_global_const => .failed_to_define_global_const
  | .failed_to_define_function => .failed_to_define_function
  | .failed_to_define_parameter => .failed_to_define_parameter
  | .failed_to_define_variable => .failed_to_define_variable
  | .reference_to_undefined_variable => .reference_to_undefined_variable
  | .assignment_of_undefined_variable => .assignment_of_undefined_variable
  | .call_to_undefined_function => .call_to_undefined_function
  | .width_not_integer => .width_not_integer
  | .width_invalid => .width_invalid
  | .expected_constant_expression => .expected_constant_expression
  | .let_variable_in_constant_expression => .let_variable_in_constant_expression
  | .parameter_in_constant_expression => .parameter_in_constant_expression
  | .function_in_expression => .function_in_expression
  | .invalid_integer_literal => .invalid_integer_literal
  | .assigning_parameter => .assigning_parameter
  | .assigning_function => .assigning_function
  | .assigning_const => .assigning_const
  | .call_non_function => .call_non_function
  | .codegen_call_to_unanalyzed => .codegen_call_to_unanalyzed
  | .width_deduction_from_non_uint => .width_deduction_from_non_uint
  | .static_assert_expression_not_bool => .static_assert_expression_not_bool
  | .static_assertion_failed => .static_assertion_failed
  | .requires_clause_not_bool => .requires_clause_not_bool
  | .requires_clause_not_satisfied => .requires_clause_not_satisfied
  | .use_of_undefined_variable => .use_of_undefined_variable
  | .use_of_undefined_constant => .use_of_undefined_constant
  | .empty_return_in_non_void_function => .empty_return_in_non_void_function
  | .non_bool_logical => .non_bool_logical
  | .break_outside_loop => .break_outside_loop
  | .continue_outside_loop => .continue_outside_loop
  | .check e => checkCode e
  | .evaluation _ => .evaluation_error
  | .execution (.evaluation _) => .evaluation_error
  | .execution _ => .execution_error

/-- What a node of a parsed program is called in reports. Lists have no name. -/
def thingOf : Parse.Kind → Option Thing
  | .program => some .program
  | .function _ => some .function
  | .parameter _ => some .parameter
  | .type _ => some .type
  | .const _ => some .constant
  | .let _ => some .variable
  | .static_assert => some .static_assertion
  | .annotation _ => some .annotation
  | .annotation_argument .. => some .annotation_argument
  | .if_statement => some .if_statement
  | .while_statement => some .while_statement
  | .break => some .break_statement
  | .continue => some .continue_statement
  | .return_statement => some .return_statement
  | .assignment _ => some .assignment
  | .block_statement => some .block_statement
  | .conversion_expression => some .conversion_expression
  | .if_expression => some .if_expression
  | .binary_expression _ => some .binary_expression
  | .prefix_expression _ => some .prefix_expression
  | .function_call_expression .. => some .function_call_expression
  | .id_expression _ => some .id_expression
  | .literal .. => some .literal
  | .parameter_list | .annotation_list => none

/-- The error can be made when analysis of a program with these nodes fails with this code at the node
with this handle. -/
structure FailsAt (nodes : List Parse.Node) (a : ACode) (handle : Nat) (e : Data) : Prop where
  code : e.code = codeOf a
  node : ∃ n, nodes[handle]? = some n ∧ e.fail.pos = some n.pos.pos ∧ thingOf n.kind = some e.fail.thing
  /-- Causes that have a position are nodes, too. -/
  cause : ∀ c q, e.cause = some c → c.pos = some q → ∃ n ∈ nodes, q = n.pos.pos

end Bms.Report
