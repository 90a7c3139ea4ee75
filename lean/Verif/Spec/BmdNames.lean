import Verif.Model.Bmd

/-!
# Specification: where directives may be written

Tables by the names of directives, as in the comments of src/bmd/directive_type.hpp. They do not refer
to the tables of the parser.
-/

namespace Bms.Bmd

/-- The name with which a directive is written. -/
def writtenName : DirType → String
  | .bold => "b"
  | .line_break => "br"
  | .deleted => "del"
  | .heading1 => "h1"
  | .heading2 => "h2"
  | .heading3 => "h3"
  | .heading4 => "h4"
  | .heading5 => "h5"
  | .heading6 => "h6"
  | .horizontal_rule => "hr"
  | .italic => "i"
  | .keyboard => "kbd"
  | .ordered_list => "ol"
  | .quoted => "q"
  | .strikethrough => "s"
  | .subscript => "sub"
  | .superscript => "sup"
  | .teletype => "tt"
  | .underlined => "u"
  | .unordered_list => "ul"
  | .code => "c"
  | .code_block => "codeblock"
  | .instruction => "instruction"
  | .item => "item"
  | .note => "note"
  | .meta_ => "meta"
  | .title => "title"
  | .bms_function => "bmsfun"
  | .c_equivalent => "cequiv"

/-- What a block, or the document, consists of. -/
inductive Inside where
  /-- There is no block. -/
  | nothing
  /-- Text without directives. -/
  | plain
  /-- Text that is not parsed. -/
  | unparsed
  /-- A part of a paragraph. -/
  | inline
  /-- Paragraphs, and directives that are paragraphs of their own. -/
  | paragraphs
  /-- Entries of a list. -/
  | items
  /-- Properties of the document. -/
  | properties
deriving DecidableEq, Repr

/-- The directives in each kind of block. -/
def namesInside : Inside → List String
  | .inline => ["b", "br", "c", "del", "i", "instruction", "kbd", "q", "s", "sub", "sup", "tt", "u"]
  | .paragraphs => ["codeblock", "h1", "h2", "h3", "h4", "h5", "h6", "hr", "meta", "note", "ol", "ul"]
  | .items => ["item"]
  | .properties => ["title", "bmsfun", "cequiv"]
  | .nothing | .plain | .unparsed => []

/-- The kind of block that each directive has. -/
def insideOf (name : String) : Inside :=
  if name ∈ ["br", "hr"] then .nothing
  else if name ∈ ["title", "bmsfun", "cequiv", "instruction"] then .plain
  else if name = "codeblock" then .unparsed
  else if name = "meta" then .properties
  else if name ∈ ["ol", "ul"] then .items
  else if name = "note" then .paragraphs
  else .inline

mutual

/-- A node within a block is of a kind that may be there; directives have the type that belongs to their
name. -/
def Nested (inside : Inside) : Node → Prop
  | .text .. => inside = .inline
  | .directive _ _ type name _ block =>
    name = (writtenName type).toList ∧ writtenName type ∈ namesInside inside ∧
      NestedBlock (insideOf (writtenName type)) block
  | .list _ _ children => inside = .paragraphs ∧ children ≠ [] ∧ NestedIn .inline children

/-- Several nodes. -/
def NestedIn (inside : Inside) : List Node → Prop
  | [] => True
  | n :: ns => Nested inside n ∧ NestedIn inside ns

/-- The block of a directive is as it has to be. -/
def NestedBlock (inside : Inside) : Option Node → Prop
  | none => True
  | some (.text ..) => inside = .plain ∨ inside = .unparsed
  | some (.list _ _ children) => inside ∉ [.nothing, .plain, .unparsed] ∧ NestedIn inside children
  | some (.directive ..) => False

end

/-- The directives that may occur directly in the block of a directive, or in a paragraph of the block. -/
def namesWithin (name : String) : List String :=
  namesInside (insideOf name) ++ if insideOf name = .paragraphs then namesInside .inline else []

end Bms.Bmd
