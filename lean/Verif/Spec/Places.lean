import Verif.Model.Parse

/-!
# Spec: the places of nodes

Which token a node is at, by its kind. Errors are reported at the places of nodes, so this is what
messages point to.
-/

namespace Bms.Spec

open Parse

/-- The text of a token. -/
def wordOf (src : List Char) (t : Token) : List Char := (src.drop t.pos.start).take t.length

/-- A handle of a node of the list that is at the place `pos`. -/
def PlacedAt (nodes : List Node) (pos : Span) (h : Handle) : Prop :=
  ∃ i n, h = some i ∧ nodes[i]? = some n ∧ n.pos = pos

/-- The token that introduces a node: a keyword, an operator, a name or a literal with the text that the
node has, or the token of the part that comes first. Lists are where their last element is. -/
def IntroducedBy (src : List Char) (nodes : List Node) (n : Node) (t : Token) : Prop :=
  match n.kind with
  | .function _ => t.type = .keyword_function
  | .const _ => t.type = .keyword_const
  | .let _ => t.type = .keyword_let
  | .static_assert => t.type = .keyword_static_assert
  | .if_statement => t.type = .keyword_if
  | .while_statement => t.type = .keyword_while
  | .break => t.type = .keyword_break
  | .continue => t.type = .keyword_continue
  | .return_statement => t.type = .keyword_return
  | .block_statement => t.type = .left_brace
  | .annotation _ => t.type = .at_sign
  | .type .Void => t.type = .keyword_void
  | .type .Bool => t.type = .keyword_bool
  | .type .Int => t.type = .keyword_int
  | .type .Uint => t.type = .keyword_uint
  | .binary_expression op | .prefix_expression op => t.type = op
  | .parameter x | .assignment x | .function_call_expression x _ | .id_expression x =>
    t.type = .identifier ∧ x = wordOf src t
  | .literal x ty => t.type = ty ∧ x = wordOf src t
  | .annotation_argument key _ ty => t.type = .identifier ∧ key = wordOf src t ∨ key = [] ∧ t.type = ty
  | .program | .conversion_expression | .if_expression =>
    ∃ h hs, n.children = h :: hs ∧ PlacedAt nodes n.pos h
  | .parameter_list | .annotation_list => ∃ h hs, n.children = hs ++ [h] ∧ PlacedAt nodes n.pos h

/-- How many children a node has, if this depends on its kind only. -/
def childCount : Kind → Option Nat
  | .function _ => some 5
  | .if_statement => some 4
  | .const _ | .let _ | .while_statement | .if_expression => some 3
  | .assignment _ | .conversion_expression | .binary_expression _ => some 2
  | .parameter _ | .type _ | .static_assert | .return_statement | .prefix_expression _ => some 1
  | .annotation_argument .. | .break | .continue | .id_expression _ | .literal .. => some 0
  | .program | .parameter_list | .annotation_list | .annotation _ | .block_statement
  | .function_call_expression .. => none

/-- The node has the right number of children. -/
def Shaped (n : Node) : Prop := ∀ c, childCount n.kind = some c → n.children.length = c

end Bms.Spec
