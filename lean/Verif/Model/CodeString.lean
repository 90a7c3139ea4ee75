import Verif.Model.Outcome

/-!
# Code strings

Transcribes src/bmd/codegen/code_string.hpp and `Scoped_Attempt` of
src/bmd/codegen/generator_base.hpp.
-/

namespace Bms

/-- `Code_Span_Type`, src/bmd/codegen/code_span_type.hpp:15-27. -/
inductive SpanType where
  | identifier
  | type_name
  | bracket
  | number
  | string
  | comment
  | operation
  | punctuation
  | keyword
  | boolean_literal
  | error
deriving DecidableEq, Repr

/-- `Code_String::Internal_Span`, src/bmd/codegen/code_string.hpp:35-39. -/
structure CodeSpan where
  start : Nat
  length : Nat
  type : SpanType
deriving DecidableEq, Repr

/-- `Code_String`, src/bmd/codegen/code_string.hpp:24-42. -/
structure CodeString where
  text : List Char
  spans : List CodeSpan
deriving DecidableEq, Repr

/-- `Code_String::Length`, src/bmd/codegen/code_string.hpp:26-29. -/
structure CodeLength where
  textLength : Nat
  spanCount : Nat
deriving DecidableEq, Repr

namespace CodeString

/-- `get_length`, src/bmd/codegen/code_string.hpp:51-54. -/
def getLength (s : CodeString) : CodeLength := ⟨s.text.length, s.spans.length⟩

/-- `std::vector::resize(n)`: cut off, or fill with value-initialized elements. -/
def resizeList {α : Type} (xs : List α) (n : Nat) (fill : α) : List α :=
  xs.take n ++ List.replicate (n - xs.length) fill

/-- `resize`, src/bmd/codegen/code_string.hpp:61-65. -/
def resize (s : CodeString) (l : CodeLength) : CodeString :=
  ⟨resizeList s.text l.textLength '\x00', resizeList s.spans l.spanCount ⟨0, 0, .identifier⟩⟩

/-- `append(text)`, src/bmd/codegen/code_string.hpp:69-72. -/
def appendText (s : CodeString) (t : List Char) : CodeString := { s with text := s.text ++ t }

/-- `append(c)`, src/bmd/codegen/code_string.hpp:76-79. -/
def appendChar (s : CodeString) (c : Char) : CodeString := { s with text := s.text ++ [c] }

/-- `append(amount, c)`, src/bmd/codegen/code_string.hpp:83-86. -/
def appendFill (s : CodeString) (amount : Nat) (c : Char) : CodeString :=
  { s with text := s.text ++ List.replicate amount c }

/-- `append(text, type)`, src/bmd/codegen/code_string.hpp:88-93. -/
def appendSpan (s : CodeString) (t : List Char) (type : SpanType) : Outcome Unit CodeString := do
  .assert (!t.isEmpty)
  .ok ⟨s.text ++ t, s.spans ++ [⟨s.text.length, t.length, type⟩]⟩

/-- `append(c, type)`, src/bmd/codegen/code_string.hpp:95-99. -/
def appendCharSpan (s : CodeString) (c : Char) (type : SpanType) : CodeString :=
  ⟨s.text ++ [c], s.spans ++ [⟨s.text.length, 1, type⟩]⟩

end CodeString

/-- What the code generators do with a code string: appending, and attempts (`Scoped_Attempt`,
src/bmd/codegen/generator_base.hpp:58-83) that are committed or given up. -/
inductive Edit where
  | skip
  | seq (a b : Edit)
  | text (t : List Char)
  | char (c : Char)
  | fill (amount : Nat) (c : Char)
  | span (t : List Char) (type : SpanType)
  | charSpan (c : Char) (type : SpanType)
  | attempt (body : Edit) (commit : Bool)
deriving DecidableEq, Repr

/-- Perform an edit.  The result is the code string and whether the edit ended regularly (`true`) or
by an exception.  The destructor of `Scoped_Attempt` runs in both cases, and cuts the string unless
`commit` has been called, which is the last thing an attempt does. -/
def CodeString.edit (s : CodeString) : Edit → CodeString × Bool
  | .skip => (s, true)
  | .seq a b =>
    match s.edit a with
    | (s', true) => s'.edit b
    | (s', false) => (s', false)
  | .text t => (s.appendText t, true)
  | .char c => (s.appendChar c, true)
  | .fill amount c => (s.appendFill amount c, true)
  | .span t type =>
    match s.appendSpan t type with
    | .ok s' => (s', true)
    | _ => (s, false)
  | .charSpan c type => (s.appendCharSpan c type, true)
  | .attempt body commit =>
    match s.edit body with
    | (s', true) => if commit then (s', true) else (s'.resize s.getLength, true)
    | (s', false) => (s'.resize s.getLength, false)

end Bms
