import Verif.Spec.Diagnostics
import Verif.Spec.Places

/-!
# Spec: what is shown of tokens and trees

The lines that are shown for tokens, and the order in which a tree is shown.
-/

namespace Bms.Spec

open Parse Diag

/-- A number, moved to the right in a column with two places. -/
def cell (n : Nat) : List Char := List.replicate (2 - (decimal n).length) ' ' ++ decimal n

/-- Tokens with texts that depend on the program. -/
def Variable (t : TokenType) : Prop :=
  t ∈ [.identifier, .decimal_literal, .octal_literal, .hexadecimal_literal, .binary_literal, .string_literal,
    .block_comment, .line_comment]

/-- The line of a token that has `line`, `column`, `name` and `text`. -/
inductive TokenLine (line column : Nat) (name : List Char) (type : TokenType) (text : List Char) :
    List Char → Prop
  | fixed (h : ¬ Variable type) :
    TokenLine line column name type text (cell line ++ ':' :: cell column ++ ": ".toList ++ name ++ ['\n'])
  | short (h : Variable type) (h1 : text.length = 1) :
    TokenLine line column name type text
      (cell line ++ ':' :: cell column ++ ": ".toList ++ name ++ '(' :: text ++ ")\n".toList)
  | long (h : Variable type) (h1 : 2 ≤ text.length) :
    TokenLine line column name type text
      (cell line ++ ':' :: cell column ++ ": ".toList ++ name ++ '(' :: text ++
        ") (".toList ++ decimal text.length ++ " characters)\n".toList)

/-- The lines of a list of tokens: each has the place, the type and the text of its token. -/
inductive TokenLines (src : List Char) (name : TokenType → List Char) : List Token → List Char → Prop
  | nil : TokenLines src name [] []
  | cons {t : Token} {ts : List Token} {line rest : List Char}
    (h : TokenLine (t.pos.line + 1) (t.pos.column + 1) (name t.type) t.type (wordOf src t) line)
    (hs : TokenLines src name ts rest) : TokenLines src name (t :: ts) (line ++ rest)

/-- A node in a tree that is shown: how deep it is, what it is for its parent, and its handle. -/
structure DumpItem where
  level : Nat
  role : List Char
  handle : Handle
deriving DecidableEq, Repr

/-- What the children of a node are, for nodes that do not have children of one sort only. -/
def roles : Kind → Option (List (List Char))
  | .function _ => some ["annotations".toList, "parameters".toList, "return_type".toList,
      "requires_clause".toList, "body".toList]
  | .const _ => some ["annotations".toList, "type".toList, "initializer".toList]
  | .let _ => some ["annotations".toList, "type".toList, "initializer".toList]
  | .if_statement => some ["annotations".toList, "condition".toList, "if_block".toList, "else_block".toList]
  | .while_statement => some ["annotations".toList, "condition".toList, "block".toList]
  | .assignment _ => some ["annotations".toList, "expression".toList]
  | .if_expression => some ["left".toList, "condition".toList, "right".toList]
  | .conversion_expression => some ["expression".toList, "target_type".toList]
  | .binary_expression _ => some ["left".toList, "right".toList]
  | .prefix_expression _ => some ["expression".toList]
  | .return_statement => some ["expression".toList]
  | .static_assert => some ["expression".toList]
  | .type _ => some ["width".toList]
  | .parameter _ => some ["type".toList]
  | .annotation _ => some ["type".toList]
  | .program | .parameter_list | .annotation_list | .annotation_argument .. | .break | .continue
  | .block_statement | .function_call_expression .. | .id_expression _ | .literal .. => none

/-- What the child with the number `i` is. -/
def role (k : Kind) (i : Nat) : List Char :=
  match roles k with
  | none => []
  | some names => names[i]?.getD []

/-- The children of a node, in order. -/
def dumpKids (level : Nat) (n : Node) : List DumpItem :=
  n.children.zipIdx.map fun p => ⟨level + 1, role n.kind p.2, p.1⟩

/-- Preorder, for a list of trees that remain: first the node itself, then its children, then the rest. -/
inductive Preorder (nodes : List Node) : List DumpItem → List DumpItem → Prop
  | nil : Preorder nodes [] []
  | null {level : Nat} {r : List Char} {rest shown : List DumpItem} (h : Preorder nodes rest shown) :
    Preorder nodes (⟨level, r, none⟩ :: rest) (⟨level, r, none⟩ :: shown)
  | node {level : Nat} {r : List Char} {i : Nat} {n : Node} {rest shown : List DumpItem}
    (hn : nodes[i]? = some n) (h : Preorder nodes (dumpKids level n ++ rest) shown) :
    Preorder nodes (⟨level, r, some i⟩ :: rest) (⟨level, r, some i⟩ :: shown)

/-- Text in front of a node that tells what it is for its parent. -/
def roleText (r : List Char) : List Char := if r = [] then [] else r ++ ['=']

/-- The line of a node without its indentation: `names` gives names of kinds. -/
inductive ItemLine (src : List Char) (names : Kind → List Char) (nodes : List Node) :
    DumpItem → List Char → Prop
  | null {level : Nat} {r : List Char} : ItemLine src names nodes ⟨level, r, none⟩ (roleText r ++ "null\n".toList)
  | node {level : Nat} {r : List Char} {i : Nat} {n : Node} {t : Token} (hn : nodes[i]? = some n)
    (ht : IntroducedBy src nodes n t) (hp : n.pos = t.span) :
    ItemLine src names nodes ⟨level, r, some i⟩
      (decimal i ++ ':' :: roleText r ++ names n.kind ++ '(' :: wordOf src t ++ ")\n".toList)

/-- The text for a list of nodes, one line after the other. -/
inductive ItemLines (src : List Char) (names : Kind → List Char) (nodes : List Node) (width : Nat) :
    List DumpItem → List Char → Prop
  | nil : ItemLines src names nodes width [] []
  | cons {e : DumpItem} {es : List DumpItem} {line rest : List Char} (h : ItemLine src names nodes e line)
    (hs : ItemLines src names nodes width es rest) :
    ItemLines src names nodes width (e :: es) (List.replicate (width * e.level) ' ' ++ line ++ rest)

/-- Characters that are shown in another way. -/
def visible : Char → List Char
  | '\r' => "\\r".toList
  | '\t' => "\\t".toList
  | '\n' => "\\n".toList
  | c => [c]

end Bms.Spec
