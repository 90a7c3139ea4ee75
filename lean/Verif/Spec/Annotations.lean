import Verif.Model.Annotations
import Verif.Spec.Grammar
import Mathlib.Data.List.Forall2

/-!
# Specification: annotations

What may be written as annotation and where, which argument belongs to which parameter, and which
annotations a program has.
-/

namespace Bms.Spec

open Annot (AnnotationType Construct ArgValue Argument Annotation)
open Bms.Parse (Kind)

/-! ## Single annotations -/

/-- A parameter of an annotation, and the values it may have. -/
structure AnnotationParameter where
  name : String
  required : Bool
  type : Annot.ParameterType
  allows : ArgValue → Prop

/-- The name of an annotation; `@inline` is mentioned in src/bms/analyze.hpp:35. -/
def annotationName : AnnotationType → String
  | .immutable => "immutable"
  | .inline_ => "inline"
  | .loop_variable => "loop_variable"
  | .loop_step => "loop_step"
  | .unroll => "unroll"
  | .c_equivalent => "c_equivalent"
  | .java_equivalent => "java_equivalent"
  | .instantiate => "instantiate"
  | .false_if_unknown => "false_if_unknown"
  | .remove_if_unused => "remove_if_unused"

/-- What may have the annotation. -/
def annotationTargets : AnnotationType → List Construct
  | .immutable | .loop_variable => [.variable]
  | .inline_ => [.variable, .function_call_expression]
  | .loop_step => [.assignment]
  | .unroll => [.while_statement]
  | .false_if_unknown => [.if_statement]
  | .c_equivalent | .java_equivalent | .instantiate | .remove_if_unused => [.function]

/-- A nonempty text. -/
def SomeText (v : ArgValue) : Prop := ∃ s, v = .string s ∧ s ≠ []

/-- A width of integers. -/
def SomeWidth (v : ArgValue) : Prop := ∃ n, v = .integer n ∧ 1 ≤ n ∧ n ≤ 128

/-- The last two digits of the year of a version of C. -/
def SomeCVersion (v : ArgValue) : Prop := ∃ n ∈ ([89, 90, 99, 11, 17, 23, 29] : List Int), v = .integer n

/-- The parameters of annotations. -/
def annotationParameters : AnnotationType → List AnnotationParameter
  | .unroll => [⟨"limit", true, .integer, SomeWidth⟩]
  | .c_equivalent =>
    [⟨"function", true, .string, SomeText⟩, ⟨"include", false, .string, SomeText⟩,
     ⟨"since", false, .integer, SomeCVersion⟩]
  | .java_equivalent => [⟨"method", true, .string, SomeText⟩]
  | .instantiate => [⟨"n", true, .integer, SomeWidth⟩]
  | _ => []

/-- The type of the literal that is given as argument. -/
inductive ArgumentType : Argument → Annot.ParameterType → Prop
  | boolean {k x t} : t ∈ booleanLiterals → ArgumentType ⟨k, x, t⟩ .boolean
  | integer {k x t} : t ∈ integerLiterals → ArgumentType ⟨k, x, t⟩ .integer
  | string {k x} : ArgumentType ⟨k, x, .string_literal⟩ .string

/-- The value of the literal that is given as argument. For the value of integers see C15. -/
inductive ArgumentValue : Argument → ArgValue → Prop
  | true_ {k x} : ArgumentValue ⟨k, x, .keyword_true⟩ (.boolean true)
  | false_ {k x} : ArgumentValue ⟨k, x, .keyword_false⟩ (.boolean false)
  | integer {k x t n} : t ∈ integerLiterals → parseIntegerLiteral x = some n →
      ArgumentValue ⟨k, x, t⟩ (.integer n)
  | string {k x} : ArgumentValue ⟨k, x, .string_literal⟩ (.string x)

/-- Argument number `i` goes to parameter number `f[i]`: no parameter has two arguments, a named argument
goes to the parameter of that name, and one without a name to the first parameter that none of the
arguments before it goes to. -/
structure Assigns (ps : List AnnotationParameter) (args : List Argument) (f : List Nat) : Prop where
  length : f.length = args.length
  fresh : f.Nodup
  inside : ∀ p ∈ f, p < ps.length
  named : ∀ (i : Nat) (a : Argument) (p : Nat), args[i]? = some a → f[i]? = some p → a.key ≠ [] →
    (ps[p]?.map fun q => q.name.toList) = some a.key
  positional : ∀ (i : Nat) (a : Argument) (p : Nat), args[i]? = some a → f[i]? = some p → a.key = [] →
    ∀ q < p, q ∈ f.take i

/-- The values of the arguments are allowed for the parameters they go to. -/
def Allowed (ps : List AnnotationParameter) (args : List Argument) (f : List Nat) (vs : List ArgValue) : Prop :=
  vs.length = args.length ∧
  ∀ (i : Nat) (a : Argument) (p : Nat) (v : ArgValue), args[i]? = some a → f[i]? = some p → vs[i]? = some v →
    ∃ q, ps[p]? = some q ∧ ArgumentType a q.type ∧ ArgumentValue a v ∧ q.allows v

/-- An annotation with this name and these arguments may be written there, and has these values. -/
structure AnnotationFits (c : Construct) (name : List Char) (args : List Argument) (a : Annotation) : Prop where
  name : (annotationName a.type).toList = name
  target : c ∈ annotationTargets a.type
  arguments : ∃ f, Assigns (annotationParameters a.type) args f ∧
    Allowed (annotationParameters a.type) args f a.arguments ∧
    ∀ p q, (annotationParameters a.type)[p]? = some q → q.required = true → p ∈ f

/-- What is wrong with an argument, if the arguments before it go to the parameters `f`. -/
inductive ArgumentError (ps : List AnnotationParameter) (f : List Nat) (a : Argument) :
    Annot.ErrorCode → Prop
  | tooMany : a.key = [] → (∀ p < ps.length, p ∈ f) →
      ArgumentError ps f a .annotation_too_many_arguments
  | duplicate {p q} : a.key ≠ [] → ps[p]? = some q → q.name.toList = a.key → p ∈ f →
      ArgumentError ps f a .annotation_argument_duplicate
  | unknown : a.key ≠ [] → (∀ q ∈ ps, q.name.toList ≠ a.key) →
      ArgumentError ps f a .annotation_unknown_parameter
  | wrongType {p q t} : ps[p]? = some q → p ∉ f → (a.key ≠ [] → q.name.toList = a.key) →
      (a.key = [] → ∀ p' < p, p' ∈ f) → ArgumentType a t → t ≠ q.type →
      ArgumentError ps f a .annotation_argument_wrong_type
  | noValue {p q} : ps[p]? = some q → p ∉ f → (a.key ≠ [] → q.name.toList = a.key) →
      (a.key = [] → ∀ p' < p, p' ∈ f) → q.type = .integer → a.type ∈ integerLiterals →
      parseIntegerLiteral a.value = none → ArgumentError ps f a .invalid_integer_literal
  | wrongValue {p q v} : ps[p]? = some q → p ∉ f → (a.key ≠ [] → q.name.toList = a.key) →
      (a.key = [] → ∀ p' < p, p' ∈ f) → ArgumentType a q.type → ArgumentValue a v → ¬ q.allows v →
      ArgumentError ps f a .annotation_argument_wrong_value

/-- What is wrong with an annotation. -/
inductive AnnotationError (c : Construct) (name : List Char) (args : List Argument) : Annot.Error → Prop
  | unknown : (∀ t, (annotationName t).toList ≠ name) →
      AnnotationError c name args ⟨.annotation_unknown, .annotation, name⟩
  | notApplicable {t} : (annotationName t).toList = name → c ∉ annotationTargets t →
      AnnotationError c name args ⟨.annotation_not_applicable, .annotation, name⟩
  | argument {t pre a post f vs code} : (annotationName t).toList = name → c ∈ annotationTargets t →
      args = pre ++ a :: post → Assigns (annotationParameters t) pre f →
      Allowed (annotationParameters t) pre f vs → ArgumentError (annotationParameters t) f a code →
      AnnotationError c name args ⟨code, .annotation_argument, a.key⟩
  | missing {t f vs p q} : (annotationName t).toList = name → c ∈ annotationTargets t →
      Assigns (annotationParameters t) args f → Allowed (annotationParameters t) args f vs →
      (annotationParameters t)[p]? = some q → q.required = true → p ∉ f →
      AnnotationError c name args ⟨.annotation_missing_argument, .annotation, name⟩

/-- An argument as the parser makes it: the value is a literal, and the text of a string is what stands
between its quotes. -/
def Argument.Parsed (a : Argument) : Prop :=
  a.type ∈ integerLiterals ∨ a.type ∈ booleanLiterals ∨
    (a.type = .string_literal ∧ a.value.head? ≠ some '"')

/-! ## Annotations of a program -/

/-- An annotation as it is written: name and arguments. -/
abbrev WrittenAnnotation := List Char × List Argument

/-- The argument that a tree stands for. -/
def argumentOf : Option Tree → List Argument
  | some (.node (.annotation_argument k x t) _) => [⟨k, x, t⟩]
  | _ => []

/-- The annotation that a tree stands for. -/
def writtenOf : Option Tree → List WrittenAnnotation
  | some (.node (.annotation x) args) => [(x, args.flatMap argumentOf)]
  | _ => []

/-- The annotations in a list of annotations. -/
def listOf : Option Tree → List WrittenAnnotation
  | some (.node .annotation_list as) => as.flatMap writtenOf
  | _ => []

/-- What the node with its annotations can be. -/
def targetOf : Kind → Option Construct
  | .function _ => some .function
  | .const _ => some .constant
  | .let _ => some .variable
  | .if_statement => some .if_statement
  | .while_statement => some .while_statement
  | .assignment _ => some .assignment
  | .function_call_expression _ _ => some .function_call_expression
  | _ => none

/-- A place in a program that may have annotations, with those that it has. -/
abbrev Site := Construct × List WrittenAnnotation

mutual

/-- The places that may have annotations, from left to right, where a place comes before those in it. -/
def Tree.sites : Tree → List Site
  | .node k cs =>
    (match targetOf k with
      | some c => [(c, cs.flatMap listOf)]
      | none => []) ++ sitesAll cs

/-- The places in several trees. -/
def sitesAll : List (Option Tree) → List Site
  | [] => []
  | none :: ts => sitesAll ts
  | some t :: ts => t.sites ++ sitesAll ts

end

/-- All annotations there fit, and have these values. -/
def SiteFits (s : Site) (r : Construct × List Annotation) : Prop :=
  s.1 = r.1 ∧ List.Forall₂ (fun w a => AnnotationFits s.1 w.1 w.2 a) s.2 r.2

/-- The first annotation that does not fit has this error. -/
def FirstError (ss : List Site) (e : Annot.Error) : Prop :=
  ∃ pre s post ws w rest rs as, ss = pre ++ s :: post ∧ List.Forall₂ SiteFits pre rs ∧
    s.2 = ws ++ w :: rest ∧ List.Forall₂ (fun w a => AnnotationFits s.1 w.1 w.2 a) ws as ∧
    AnnotationError s.1 w.1 w.2 e

end Bms.Spec
