import Verif.Model.Diagnostics
import Verif.Model.Output

/-!
# Printing of tokens and trees

Transcribes `print_tokens` and the two printers of trees, src/common/diagnostics.cpp:804-990.

Simplifications:
* Streams are as in Model/Diagnostics. What was written before an exception is thrown is not recorded.
* Levels of indentation are not limited, while in the code they are of type `int`.
* The arguments of a directive, an unordered map, are visited in the order that `order` gives.
-/

namespace Bms.Dump

open Diag Parse Output

/-- `token_type_name`, src/bms/util.cpp:9-74. -/
def tokenName : TokenType → List Char
  | .identifier => "identifier".toList
  | .left_parenthesis => "left_parenthesis".toList
  | .right_parenthesis => "right_parenthesis".toList
  | .decimal_literal => "decimal_literal".toList
  | .octal_literal => "octal_literal".toList
  | .hexadecimal_literal => "hexadecimal_literal".toList
  | .binary_literal => "binary_literal".toList
  | .string_literal => "string_literal".toList
  | .left_brace => "left_brace".toList
  | .right_brace => "right_brace".toList
  | .block_comment => "block_comment".toList
  | .line_comment => "line_comment".toList
  | .assign => "assign".toList
  | .equals => "equals".toList
  | .not_equals => "not_equals".toList
  | .plus => "plus".toList
  | .minus => "minus".toList
  | .multiplication => "multiplication".toList
  | .division => "division".toList
  | .remainder => "remainder".toList
  | .less_than => "less_than".toList
  | .greater_than => "greater_than".toList
  | .less_or_equal => "less_or_equal".toList
  | .greater_or_equal => "greater_or_equal".toList
  | .shift_left => "shift_left".toList
  | .shift_right => "shift_right".toList
  | .bitwise_and => "bitwise_and".toList
  | .bitwise_or => "bitwise_or".toList
  | .bitwise_not => "bitwise_not".toList
  | .bitwise_xor => "bitwise_xor".toList
  | .logical_and => "logical_and".toList
  | .logical_or => "logical_or".toList
  | .logical_not => "logical_not".toList
  | .right_arrow => "right_arrow".toList
  | .double_right_arrow => "double_right_arrow".toList
  | .dot => "dot".toList
  | .colon => "colon".toList
  | .comma => "comma".toList
  | .at_sign => "at".toList
  | .semicolon => "semicolon".toList
  | .keyword_as => "keyword_as".toList
  | .keyword_let => "keyword_let".toList
  | .keyword_const => "keyword_const".toList
  | .keyword_function => "keyword_function".toList
  | .keyword_while => "keyword_while".toList
  | .keyword_if => "keyword_if".toList
  | .keyword_else => "keyword_else".toList
  | .keyword_uint => "keyword_uint".toList
  | .keyword_int => "keyword_int".toList
  | .keyword_bool => "keyword_bool".toList
  | .keyword_void => "keyword_void".toList
  | .keyword_requires => "keyword_requires".toList
  | .keyword_return => "keyword_return".toList
  | .keyword_break => "keyword_break".toList
  | .keyword_continue => "keyword_continue".toList
  | .keyword_true => "keyword_true".toList
  | .keyword_false => "keyword_false".toList
  | .keyword_static_assert => "keyword_static_assert".toList

/-- The text of a token with variable length, diagnostics.cpp:816-821. -/
def printTokenText (t : Token) (text : List Char) : Out :=
  if t.type.length = 0 then
    [lit "(", .text text, lit ")"] ++
      (if text.length > 1 then [lit " (", .text (stdToString text.length), lit " characters)"] else [])
  else []

/-- The body of the loop of `print_tokens`, diagnostics.cpp:808-823. -/
def printToken (source : List Char) (t : Token) : Print Out := do
  let text ← substr source t.pos.start t.length
  return [.text (padLeft 2 (stdToString (t.pos.line + 1))), lit ":",
    .text (padLeft 2 (stdToString (t.pos.column + 1))), lit ": ", .text (tokenName t.type)] ++
    printTokenText t text ++ [lit "\n"]

/-- `print_tokens`, diagnostics.cpp:804-826. -/
def printTokens (source : List Char) : List Token → Print Out
  | [] => .ok []
  | t :: ts => do
    let first ← printToken source t
    let rest ← printTokens source ts
    return first ++ rest

/-- `self_name` of the nodes, src/bms/parsing/astp.hpp:58-535. -/
def nodeName : Kind → List Char
  | .program => "Program".toList
  | .function _ => "Function".toList
  | .parameter_list => "Parameter_List".toList
  | .parameter _ => "Parameter".toList
  | .type _ => "Type".toList
  | .const _ => "Const".toList
  | .let _ => "Let".toList
  | .static_assert => "Static_Assert".toList
  | .annotation_list => "Attribute_List".toList
  | .annotation _ => "Attribute".toList
  | .annotation_argument .. => "Annotation_Argument".toList
  | .if_statement => "If_Statement".toList
  | .while_statement => "While_Statement".toList
  | .break => "Break".toList
  | .continue => "Continue".toList
  | .return_statement => "Return_Statement".toList
  | .assignment _ => "Assignment".toList
  | .block_statement => "Block_Statement".toList
  | .conversion_expression => "Conversion_Expression".toList
  | .if_expression => "If_Expression".toList
  | .binary_expression _ => "Binary_Expression".toList
  | .prefix_expression _ => "Prefix_Expression".toList
  | .function_call_expression .. => "Function_Call_Expression".toList
  | .id_expression _ => "Id_Expression".toList
  | .literal .. => "Literal".toList

/-- `child_names` of the nodes that have them, src/bms/parsing/astp.hpp:80-471. -/
def childNames : Kind → Option (List (List Char))
  | .function _ => some ["annotations".toList, "parameters".toList, "return_type".toList,
      "requires_clause".toList, "body".toList]
  | .parameter _ | .annotation _ => some ["type".toList]
  | .type _ => some ["width".toList]
  | .const _ | .let _ => some ["annotations".toList, "type".toList, "initializer".toList]
  | .static_assert | .return_statement | .prefix_expression _ => some ["expression".toList]
  | .if_statement => some ["annotations".toList, "condition".toList, "if_block".toList, "else_block".toList]
  | .while_statement => some ["annotations".toList, "condition".toList, "block".toList]
  | .assignment _ => some ["annotations".toList, "expression".toList]
  | .conversion_expression => some ["expression".toList, "target_type".toList]
  | .if_expression => some ["left".toList, "condition".toList, "right".toList]
  | .binary_expression _ => some ["left".toList, "right".toList]
  | _ => none

/-- How printing of a tree ends; `err ()` if the bound on its depth is reached. -/
abbrev Printed := Outcome Unit Out

/-- The name of the child with number `i`, diagnostics.cpp:869-878; `child_names[i]` is an array access. -/
def childName (k : Kind) (i : Nat) : Outcome Unit (List Char) :=
  match childNames k with
  | none => .ok []
  | some names =>
    match names[i]? with
    | some name => .ok name
    | none => .ub

/-- The name in front of a node, diagnostics.cpp:849-852. -/
def printName (name : List Char) (colors : Bool) : Out :=
  if name ≠ [] then
    color colors ansiHGreen ++ [.text name] ++ color colors ansiBlack ++ [lit "="] ++ color colors ansiReset
  else []

/-- The line of a node without indentation, diagnostics.cpp:847 and 861-865. -/
def printHead (i : Nat) (name : List Char) (n : Parse.Node) (text : List Char) (colors : Bool) : Out :=
  color colors ansiHBlack ++ [.text (stdToString i)] ++ color colors ansiReset ++ [lit ":"] ++
  printName name colors ++
  color colors ansiHMagenta ++ [.text (nodeName n.kind)] ++ color colors ansiHBlack ++ [lit "("] ++
  color colors ansiReset ++ [.text text] ++ color colors ansiHBlack ++ [lit ")\n"] ++ color colors ansiReset

/-- `extract`, src/bms/parsing/parse.cpp:97-100. -/
def extract (source : List Char) (s : Span) : Outcome Unit (List Char) :=
  if s.pos.start ≤ source.length then .ok ((source.drop s.pos.start).take s.length) else .throws

/-- The loop over children, diagnostics.cpp:868-880, with the number of the next one. -/
def printChildren (print : Handle → List Char → Printed) (k : Kind) : Nat → List Handle → Printed
  | _, [] => .ok []
  | i, h :: hs => do
    let name ← childName k i
    let first ← print h name
    let rest ← printChildren print k (i + 1) hs
    return first ++ rest

/-- `BMS_AST_Printer::print`, diagnostics.cpp:840-881. -/
def printNode (source : List Char) (nodes : List Parse.Node) (indentWidth : Nat) (colors : Bool) :
    Nat → Nat → Handle → List Char → Printed
  | 0, _, _, _ => .err ()
  | _ + 1, level, none, name =>
    .ok (.text (List.replicate (indentWidth * level) ' ') :: printName name colors ++ [lit "null\n"])
  | fuel + 1, level, some i, name =>
    match nodes[i]? with
    | none => .ub
    | some n => do
      let text ← extract source n.pos
      let rest ← printChildren (printNode source nodes indentWidth colors fuel (level + 1)) n.kind 0 n.children
      return .text (List.replicate (indentWidth * level) ' ') :: printHead i name n text colors ++ rest

/-- `print_ast` for programs, diagnostics.cpp:977-982. -/
def printProgram (source : List Char) (nodes : List Parse.Node) (root : Nat) (indentWidth : Nat)
    (colors : Bool) : Printed :=
  printNode source nodes indentWidth colors (nodes.length + 2) 0 (some root) []

/-! ## Documents -/

/-- `print_cut_off`, diagnostics.cpp:941-972, with `visual_length`. -/
def printCutOff (maxLength : Nat) (colors : Bool) : Nat → List Char → Out
  | _, [] => []
  | length, c :: cs =>
    if length ≥ maxLength then color colors ansiHBlack ++ [lit " ..."] ++ color colors ansiReset
    else if c = '\r' then
      color colors ansiHRed ++ [lit "\\r"] ++ color colors ansiReset ++ printCutOff maxLength colors (length + 2) cs
    else if c = '\t' then
      color colors ansiHRed ++ [lit "\\t"] ++ color colors ansiReset ++ printCutOff maxLength colors (length + 2) cs
    else if c = '\n' then
      color colors ansiHRed ++ [lit "\\n"] ++ color colors ansiReset ++ printCutOff maxLength colors (length + 2) cs
    else .text [c] :: printCutOff maxLength colors (length + 1) cs

/-- `Parsed_Document::extract`, src/bmd/parsing/parse.hpp:46-51. -/
def extractSpan (source : List Char) (p : Position) (length : Nat) : Print (List Char) :=
  if p.start < source.length ∧ p.start + length ≤ source.length then .ok ((source.drop p.start).take length)
  else .throws

/-- `get_source_span(Value)`, src/bmd/parsing/ast.hpp:66-70. -/
def valueSpan : Bmd.Value → Position × Nat
  | .ident p name => (p, name.length)
  | .number p length _ _ => (p, length)

/-- The arguments of a directive, diagnostics.cpp:922-925. -/
def printArguments (source : List Char) (indent : List Char) : List (List Char × Bmd.Value) → Print Out
  | [] => .ok []
  | (key, v) :: args => do
    let text ← extractSpan source (valueSpan v).1 (valueSpan v).2
    let rest ← printArguments source indent args
    return [.text indent, ansiHBlue, .text key, lit ": ", ansiReset, .text text, lit "\n"] ++ rest

/-- The line of a node, diagnostics.cpp:899-919: `name` is what is printed in front of the text. -/
def printLine (source indent : List Char) (name : Out) (p : Position) (length maxLength : Nat)
    (colors : Bool) : Print Out := do
  let text ← extractSpan source p length
  return .text indent :: name ++ [ansiHBlack, lit "(", ansiReset] ++ printCutOff maxLength colors 0 text ++
    [ansiHBlack, lit ")\n", ansiReset]

mutual

/-- `BMD_AST_Printer::print` for a node, diagnostics.cpp:894-932. -/
def printDocNode (order : List (List Char × Bmd.Value) → List (List Char × Bmd.Value)) (source : List Char)
    (indentWidth maxLength : Nat) (colors : Bool) (level : Nat) : Bmd.Node → Print Out
  | .list p len children => do
    let line ← printLine source (List.replicate (indentWidth * level) ' ') [ansiHMagenta, lit "List"] p len
      maxLength colors
    let rest ← printDocNodes order source indentWidth maxLength colors (level + 1) children
    return line ++ rest
  | .directive p len _ ident args block => do
    let line ← printLine source (List.replicate (indentWidth * level) ' ')
      [ansiHGreen, lit "\\", .text ident] p len maxLength colors
    let arguments ← printArguments source (List.replicate (indentWidth * level) ' ') (order args)
    let rest ← printDocBlock order source indentWidth maxLength colors (level + 1) block
    return line ++ arguments ++ rest
  | .text p len _ =>
    printLine source (List.replicate (indentWidth * level) ' ') [ansiHMagenta, lit "Text"] p len maxLength colors

/-- The loop over the children of a list. -/
def printDocNodes (order : List (List Char × Bmd.Value) → List (List Char × Bmd.Value)) (source : List Char)
    (indentWidth maxLength : Nat) (colors : Bool) (level : Nat) : List Bmd.Node → Print Out
  | [] => .ok []
  | n :: ns => do
    let first ← printDocNode order source indentWidth maxLength colors level n
    let rest ← printDocNodes order source indentWidth maxLength colors level ns
    return first ++ rest

/-- `BMD_AST_Printer::print` for a pointer, which may be null. -/
def printDocBlock (order : List (List Char × Bmd.Value) → List (List Char × Bmd.Value)) (source : List Char)
    (indentWidth maxLength : Nat) (colors : Bool) (level : Nat) : Option Bmd.Node → Print Out
  | none => .ok [.text (List.replicate (indentWidth * level) ' '), lit "null\n"]
  | some n => printDocNode order source indentWidth maxLength colors level n

end

/-- `print_ast` for documents, diagnostics.cpp:984-990. -/
def printDocument (order : List (List Char × Bmd.Value) → List (List Char × Bmd.Value)) (source : List Char)
    (root : Option Bmd.Node) (indentWidth maxLength : Nat) (colors : Bool) : Print Out :=
  printDocBlock order source indentWidth maxLength colors 0 root

end Bms.Dump
