import Verif.Model.Parse
import Verif.Model.Text

/-!
# Annotations

Transcribes src/bms/analyze_annotations.cpp, `annotation_type_by_name` (src/bms/util.cpp:507-534) and
the types of src/bms/annotation.hpp.

Simplifications:
* The code visits the tree made from the parsed program; the model visits the nodes of the parser, of
  which that tree has the same ones (`Model/Build.lean`, C60): children of a node of the tree are the
  children of the parser node without the annotations (src/bms/ast.cpp:469-481, 417-450, 491-498).
* An error has the code, and the kind and name of the construct it is reported for; positions, the
  cause, and the expected and actual type of an argument are left out.
* The result is the list of what is stored in `m_concrete` of the annotated nodes, in the order of the
  visits, each with the kind of its node.
* The recursion is bounded by the handle: children of parser nodes have smaller handles (C52). If a
  child has a wrong kind or is missing, the model stops with the error `none`; that this does not happen
  for the result of the parser is part of what is proved.
-/

namespace Bms
namespace Annot

open Parse (Kind Node Handle)

/-- `Annotation_Type`, src/bms/annotation.hpp:17-28. -/
inductive AnnotationType where
  | immutable | inline_ | loop_variable | loop_step | unroll | c_equivalent | java_equivalent
  | instantiate | false_if_unknown | remove_if_unused
deriving DecidableEq, Repr

/-- `Annotation_Parameter_Type`, src/bms/annotation.hpp:30. -/
inductive ParameterType where
  | boolean | integer | string
deriving DecidableEq, Repr

/-- `Construct`, src/bms/debug_info.hpp:10-36, as far as it can have annotations or be the construct that
an error is reported for. -/
inductive Construct where
  | function | constant | variable | if_statement | while_statement | assignment
  | function_call_expression | annotation | annotation_argument
deriving DecidableEq, Repr

/-- `Analysis_Error_Code`, src/bms/analysis_error.hpp:116-133, those that are used here. -/
inductive ErrorCode where
  | annotation_unknown | annotation_not_applicable | annotation_unknown_parameter
  | annotation_too_many_arguments | annotation_argument_duplicate | annotation_argument_wrong_type
  | annotation_argument_wrong_value | annotation_missing_argument | invalid_integer_literal
deriving DecidableEq, Repr

/-- `Analysis_Error`, src/bms/analysis_error.hpp. -/
structure Error where
  code : ErrorCode
  construct : Construct
  name : List Char
deriving DecidableEq, Repr

/-- `Annotation_Argument`, src/bms/annotation.hpp:36-40. -/
inductive ArgValue where
  | boolean (b : Bool)
  | integer (n : Int)
  | string (s : List Char)
deriving DecidableEq, Repr

/-- `Annotation`, src/bms/annotation.hpp:44-47. -/
structure Annotation where
  type : AnnotationType
  arguments : List ArgValue
deriving DecidableEq, Repr

/-- `annotation_type_name`, src/bms/util.cpp:507-523: the names of the enumerators. -/
def typeName : AnnotationType → String
  | .immutable => "immutable"
  | .inline_ => "inline_"
  | .loop_variable => "loop_variable"
  | .loop_step => "loop_step"
  | .unroll => "unroll"
  | .c_equivalent => "c_equivalent"
  | .java_equivalent => "java_equivalent"
  | .instantiate => "instantiate"
  | .false_if_unknown => "false_if_unknown"
  | .remove_if_unused => "remove_if_unused"

/-- The enumerators from the first to `remove_if_unused`, in order. -/
def types : List AnnotationType :=
  [.immutable, .inline_, .loop_variable, .loop_step, .unroll, .c_equivalent, .java_equivalent,
   .instantiate, .false_if_unknown, .remove_if_unused]

/-- `annotation_type_by_name`, src/bms/util.cpp:525-534. -/
def typeByName (name : List Char) : Option AnnotationType :=
  types.find? fun t => (typeName t).toList == name

/-- `parameter_type_of`, analyze_annotations.cpp:17-33. -/
def parameterTypeOf : TokenType → Outcome (Option Error) ParameterType
  | .keyword_true | .keyword_false => .ok .boolean
  | .binary_literal | .octal_literal | .decimal_literal | .hexadecimal_literal => .ok .integer
  | .string_literal => .ok .string
  | _ => .throws

/-- The validators, analyze_annotations.cpp:122-174. -/
inductive Validator where
  | non_empty_string | c_version | unroll_limit | instantiation_width
deriving DecidableEq, Repr

/-- `Argument_Validator::type` as set by the constructors. -/
def Validator.type : Validator → ParameterType
  | .non_empty_string => .string
  | .c_version | .unroll_limit | .instantiation_width => .integer

/-- `validate(Big_Int)`, l.59-62 unless it is overridden, l.139-151, l.159-162, l.170-173. -/
def Validator.integer : Validator → Int → Bool
  | .non_empty_string, _ => true
  | .c_version, n => n = 89 || n = 90 || n = 99 || n = 11 || n = 17 || n = 23 || n = 29
  | .unroll_limit, n => n > 0 && n ≤ 128
  | .instantiation_width, n => n > 0 && n ≤ 128

/-- `validate(std::string_view)`, l.63-66 unless it is overridden, l.127-130. -/
def Validator.string : Validator → List Char → Bool
  | .non_empty_string, s => !s.isEmpty
  | _, _ => true

/-- `Argument_Validator::operator()`, l.46-56; `get` throws if the value has another type. -/
def Validator.run (v : Validator) (a : ArgValue) : Outcome (Option Error) Bool :=
  match v.type, a with
  | .boolean, _ => .ok true
  | .integer, .integer n => .ok (v.integer n)
  | .string, .string s => .ok (v.string s)
  | _, _ => .throws

/-- `Annotation_Parameter`, l.69-90; `variadic` is not used. -/
structure Parameter where
  name : String
  optional : Bool := false
  validator : Validator
deriving DecidableEq, Repr

/-- `annotation_type_applicable_to`, l.92-120. -/
def applicable : AnnotationType → Construct → Bool
  | .immutable, c => c = .variable
  | .inline_, c => c = .variable || c = .function_call_expression
  | .loop_variable, c => c = .variable
  | .loop_step, c => c = .assignment
  | .unroll, c => c = .while_statement
  | .c_equivalent, c => c = .function
  | .java_equivalent, c => c = .function
  | .instantiate, c => c = .function
  | .false_if_unknown, c => c = .if_statement
  | .remove_if_unused, c => c = .function

/-- `parameters_of`, l.176-211. -/
def parametersOf : AnnotationType → List Parameter
  | .immutable | .inline_ | .loop_variable | .loop_step | .false_if_unknown | .remove_if_unused => []
  | .unroll => [⟨"limit", false, .unroll_limit⟩]
  | .c_equivalent =>
    [⟨"function", false, .non_empty_string⟩, ⟨"include", true, .non_empty_string⟩,
     ⟨"since", true, .c_version⟩]
  | .java_equivalent => [⟨"method", false, .non_empty_string⟩]
  | .instantiate => [⟨"n", false, .instantiation_width⟩]

/-- `astp::Annotation_Argument`. -/
structure Argument where
  key : List Char
  value : List Char
  type : TokenType
deriving DecidableEq, Repr

/-- The error for an argument, l.213-218. -/
def Argument.error (a : Argument) (code : ErrorCode) : Error := ⟨code, .annotation_argument, a.key⟩

/-- `parse_argument`, l.220-252. -/
def parseArgument (a : Argument) : Outcome (Option Error) ArgValue :=
  match a.type with
  | .keyword_false => .ok (.boolean false)
  | .keyword_true => .ok (.boolean true)
  | .binary_literal | .octal_literal | .decimal_literal | .hexadecimal_literal =>
    match parseIntegerLiteral a.value with
    | none => .err (some (a.error .invalid_integer_literal))
    | some n => .ok (.integer n)
  | .string_literal =>
    if a.value.head? = some '"' then .throws
    else .ok (.string a.value)
  | _ => .throws

/-- The indices below `n` are tried in order; the first `i` with `p i` is returned. -/
def firstIndex (p : Nat → Bool) (n : Nat) : Option Nat := (List.range n).find? p

/-- `match_positional`, l.287-297: the index of the parameter. -/
def matchPositional (ps : List Parameter) (covered : List Nat) (a : Argument) :
    Outcome (Option Error) Nat :=
  match firstIndex (fun i => i ∉ covered) ps.length with
  | some i => .ok i
  | none => .err (some (a.error .annotation_too_many_arguments))

/-- `match_named`, l.299-313. -/
def matchNamed (ps : List Parameter) (covered : List Nat) (a : Argument) : Outcome (Option Error) Nat :=
  match firstIndex (fun i => (ps[i]?.map fun p => p.name.toList) = some a.key) ps.length with
  | some i =>
    if i ∈ covered then .err (some (a.error .annotation_argument_duplicate))
    else .ok i
  | none => .err (some (a.error .annotation_unknown_parameter))

/-- `Annotation_Parameter_Matcher::operator()`, l.267-271. The set `parameters_covered` is the list of
covered indices; adding the returned index to it is left to the caller. -/
def matchParameter (ps : List Parameter) (covered : List Nat) (a : Argument) :
    Outcome (Option Error) Nat :=
  if a.key.isEmpty then matchPositional ps covered a else matchNamed ps covered a

/-- The body of the loop of `process_arguments`, l.466-499: the value, with the index of the parameter. -/
def processArgument (ps : List Parameter) (covered : List Nat) (a : Argument) :
    Outcome (Option Error) (Nat × ArgValue) := do
  let i ← matchParameter ps covered a
  match ps[i]? with
  | none => .ub
  | some p => do
    let type ← parameterTypeOf a.type
    if p.validator.type ≠ type then .err (some (a.error .annotation_argument_wrong_type))
    else do
      let v ← parseArgument a
      let accepted ← p.validator.run v
      if !accepted then .err (some (a.error .annotation_argument_wrong_value))
      else .ok (i, v)

/-- The loop of `process_arguments`, l.466-499. -/
def processLoop (ps : List Parameter) : List Nat → List Argument →
    Outcome (Option Error) (List Nat × List ArgValue)
  | covered, [] => .ok (covered, [])
  | covered, a :: as => do
    let (i, v) ← processArgument ps covered a
    let (covered', vs) ← processLoop ps (i :: covered) as
    .ok (covered', v :: vs)

/-- `check_for_missing`, l.273-284. -/
def missing (ps : List Parameter) (covered : List Nat) : Bool :=
  (List.range ps.length).any fun i =>
    match ps[i]? with
    | some p => !p.optional && i ∉ covered
    | none => false

/-- `process_arguments`, l.449-506, for the annotation with the given name. -/
def processArguments (name : List Char) (type : AnnotationType) (args : List Argument) :
    Outcome (Option Error) (List ArgValue) :=
  if type = .instantiate ∧ args.isEmpty then
    .err (some ⟨.annotation_missing_argument, .annotation, name⟩)
  else do
    let (covered, vs) ← processLoop (parametersOf type) [] args
    if missing (parametersOf type) covered then
      .err (some ⟨.annotation_missing_argument, .annotation, name⟩)
    else .ok vs

/-- The body of the loop of `do_resolve`, l.415-443. -/
def resolveOne (c : Construct) (name : List Char) (args : List Argument) :
    Outcome (Option Error) Annotation :=
  match typeByName name with
  | none => .err (some ⟨.annotation_unknown, .annotation, name⟩)
  | some type =>
    if !applicable type c then .err (some ⟨.annotation_not_applicable, .annotation, name⟩)
    else do
      let vs ← processArguments name type args
      .ok ⟨type, vs⟩

variable (ns : List Node)

/-- The node of an argument, l.467. -/
def argumentAt : Handle → Outcome (Option Error) Argument
  | some h =>
    match ns[h]? with
    | some ⟨_, .annotation_argument key value type, _⟩ => .ok ⟨key, value, type⟩
    | _ => .err none
  | none => .err none

/-- All of the arguments. -/
def argumentsAt : List Handle → Outcome (Option Error) (List Argument)
  | [] => .ok []
  | h :: hs => do
    let a ← argumentAt ns h
    let as ← argumentsAt hs
    .ok (a :: as)

/-- The loop of `do_resolve`, l.415-443. -/
def resolveList (c : Construct) : List Handle → Outcome (Option Error) (List Annotation)
  | [] => .ok []
  | none :: _ => .err none
  | some h :: hs =>
    match ns[h]? with
    | some ⟨_, .annotation name, args⟩ => do
      let args ← argumentsAt ns args
      let a ← resolveOne c name args
      let as ← resolveList c hs
      .ok (a :: as)
    | _ => .err none

/-- `do_resolve`, l.406-447, where `get_annotations` is src/bms/ast.cpp:395-401. -/
def resolveAt (c : Construct) : Handle → Outcome (Option Error) (List (Construct × List Annotation))
  | none => .ok [(c, [])]
  | some h =>
    match ns[h]? with
    | some ⟨_, .annotation_list, cs⟩ => do
      let as ← resolveList ns c cs
      .ok [(c, as)]
    | _ => .err none

/-- `resolve_all`, l.395-404, with the test for null of `resolve`, l.387-393. -/
def visitAll (f : Nat → Outcome (Option Error) (List (Construct × List Annotation))) :
    List Handle → Outcome (Option Error) (List (Construct × List Annotation))
  | [] => .ok []
  | none :: hs => visitAll f hs
  | some h :: hs => do
    let r ← f h
    let rs ← visitAll f hs
    .ok (r ++ rs)

/-- The types of parameters, l.369-373. -/
def visitParameters (f : Nat → Outcome (Option Error) (List (Construct × List Annotation))) :
    List Handle → Outcome (Option Error) (List (Construct × List Annotation))
  | [] => .ok []
  | none :: _ => .err none
  | some h :: hs =>
    match ns[h]? with
    | some ⟨_, .parameter _, [some t]⟩ => do
      let r ← f t
      let rs ← visitParameters f hs
      .ok (r ++ rs)
    | _ => .err none

/-- The kind of the construct that a node with annotations in front becomes. -/
def constructOf : Kind → Option Construct
  | .const _ => some .constant
  | .let _ => some .variable
  | .if_statement => some .if_statement
  | .while_statement => some .while_statement
  | .assignment _ => some .assignment
  | _ => none

/-- `Resolve_Annotations::operator()`, l.337-384. -/
def visit : Nat → Nat → Outcome (Option Error) (List (Construct × List Annotation))
  | 0, _ => .err none
  | n + 1, h =>
    match ns[h]? with
    | none => .err none
    | some ⟨_, .function _, [a, ps, ret, req, body]⟩ => do
      let r ← resolveAt ns .function a
      let rp ← (match ps with
        | none => .ok []
        | some p =>
          match ns[p]? with
          | some ⟨_, .parameter_list, cs⟩ => visitParameters ns (visit n) cs
          | _ => .err none)
      let rs ← visitAll (visit n) [ret, req, body]
      .ok (r ++ rp ++ rs)
    | some ⟨_, .function _, _⟩ => .err none
    | some ⟨_, .function_call_expression _ _, cs⟩ =>
      match cs.getLast? with
      | none => .err none
      | some a => do
        let r ← resolveAt ns .function_call_expression a
        let rs ← visitAll (visit n) cs.dropLast
        .ok (r ++ rs)
    | some ⟨_, k, cs⟩ =>
      match constructOf k with
      | some c =>
        match cs with
        | [] => .err none
        | a :: cs => do
          let r ← resolveAt ns c a
          let rs ← visitAll (visit n) cs
          .ok (r ++ rs)
      | none => visitAll (visit n) cs

/-- `resolve_annotations`, l.573-578. -/
def resolve (root : Nat) : Outcome (Option Error) (List (Construct × List Annotation)) :=
  visit ns (root + 1) root

end Annot
end Bms
