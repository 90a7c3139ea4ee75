import Verif.Model.DocHtml
import Verif.Spec.Bmd
import Verif.Spec.Html
import Verif.Spec.Tokens

/-!
# Specification: the HTML of a document

`Item`: what a page consists of. `Shown`: how items are written as text. `rootItems`: the items that
belong to a document. `rootFaults`: what is wrong with a document, in the order in which it occurs.
`SaneRoot`: the documents that the parser returns. None of this refers to the writer or the
converter; the tables of directives, languages and architectures, the kinds of faults, the
tokenizer and the question whether the parser of programs throws are shared.
-/

namespace Bms.Bmd

open Spec (Ident escape textOf Name AttrText)

/-! ## Items and how they are written -/

/-- A part of a page. -/
inductive Item where
  /-- Text. -/
  | text (s : List Char)
  /-- Text that is shown character by character. -/
  | verbatim (s : List Char)
  /-- White space, as the text demands it. -/
  | space
  /-- An element within a line. -/
  | element (tag : List Char) (attributes : List (List Char × List Char)) (children : List Item)
  /-- An element without content. -/
  | void (tag : List Char) (attributes : List (List Char × List Char))
  /-- An element on its own lines. -/
  | block (tag : List Char) (children : List Item)
  /-- An element without content, on its own line. -/
  | voidBlock (tag : List Char) (attributes : List (List Char × List Char))

/-- Spaces and line ends. -/
def Layout (s : List Char) : Prop := ∀ c ∈ s, c = ' ' ∨ c = '\n'

/-- The text `s` is written as `t`: each line may be indented, but the first one only at the start of a
line. `fresh` says whether the text begins at the start of a line; the last argument, whether it ends
there. -/
inductive TextShown : Bool → List Char → List Char → Bool → Prop
  | nil {fresh} : TextShown fresh [] [] fresh
  | last {fresh gap line} : Layout gap → (fresh = false → gap = []) → line ≠ [] → '\n' ∉ line →
      TextShown fresh line (gap ++ escape line) false
  | line {fresh gap line s t fresh'} : Layout gap → (fresh = false → gap = []) → '\n' ∉ line →
      TextShown true s t fresh' →
      TextShown fresh (line ++ '\n' :: s) (gap ++ escape line ++ '\n' :: t) fresh'

/-- Items are written as a text. White space other than that of the items appears at the start of
lines, next to other white space, and around the tags of elements that have their own lines, and
nowhere else. -/
inductive Shown : Bool → List Item → List Char → Bool → Prop
  | nil {fresh} : Shown fresh [] [] fresh
  | indent {gap items t fresh'} : Layout gap → Shown true items t fresh' →
      Shown true items (gap ++ t) fresh'
  | text {fresh s u fresh₁ items t fresh'} : TextShown fresh s u fresh₁ → Shown fresh₁ items t fresh' →
      Shown fresh (.text s :: items) (u ++ t) fresh'
  | verbatim {fresh s items t fresh'} : Shown false items t fresh' →
      Shown fresh (.verbatim s :: items) (escape s ++ t) fresh'
  | space {fresh c fresh₁ items t fresh'} : c = ' ' ∨ c = '\n' → Shown fresh₁ items t fresh' →
      Shown fresh (.space :: items) (c :: t) fresh'
  | element {fresh tag as a children u fresh₁ items t fresh'} : Name tag → AttrText as a →
      Shown false children u fresh₁ → Shown false items t fresh' →
      Shown fresh (.element tag as children :: items)
        ('<' :: (tag ++ a ++ '>' :: (u ++ '<' :: '/' :: (tag ++ '>' :: t)))) fresh'
  | void {fresh tag as a items t fresh'} : Name tag → AttrText as a → Shown false items t fresh' →
      Shown fresh (.void tag as :: items) ('<' :: (tag ++ a ++ '/' :: '>' :: t)) fresh'
  | block {fresh tag gap₁ children u fresh₁ gap₂ items t fresh'} : Name tag → Layout gap₁ →
      Shown true children u fresh₁ → Layout gap₂ → Shown true items t fresh' →
      Shown fresh (.block tag children :: items)
        (gap₁ ++ '<' :: (tag ++ '>' :: '\n' :: (u ++ gap₂ ++ '<' :: '/' :: (tag ++ '>' :: '\n' :: t))))
        fresh'
  | voidBlock {fresh tag as a gap items t fresh'} : Name tag → AttrText as a → Layout gap →
      Shown true items t fresh' →
      Shown fresh (.voidBlock tag as :: items) (gap ++ '<' :: (tag ++ a ++ '/' :: '>' :: '\n' :: t)) fresh'

/-! ## The items of a document -/

/-- The tag in which a piece of code is shown. -/
def codeTag (s : List Char) : List Char :=
  if s ∈ ["as", "let", "const", "function", "while", "if", "else", "requires", "return", "break",
      "continue", "static_assert"].map String.toList then "c-key".toList
  else if s = "true".toList ∨ s = "false".toList then "c-bol".toList
  else if s ∈ ["Uint", "Int", "Bool", "Void"].map String.toList then "c-typ".toList
  else if s ∈ ["(", ")", "{", "}"].map String.toList then "c-bra".toList
  else if s ∈ ["@", ".", ":", ",", ";", "->"].map String.toList then "c-pun".toList
  else if s = "=>".toList then "c-err".toList
  else
    match s with
    | '"' :: _ => "c-str".toList
    | '/' :: '/' :: _ => "c-com".toList
    | '/' :: '*' :: _ => "c-com".toList
    | c :: _ =>
      if '0' ≤ c ∧ c ≤ '9' then "c-int".toList
      else if ('a' ≤ c ∧ c ≤ 'z') ∨ ('A' ≤ c ∧ c ≤ 'Z') ∨ c = '_' then "c-idn".toList
      else "c-opr".toList
    | [] => []

/-- The white space between two tokens, from their positions: as many line ends as there are lines
between the starts of the tokens, and the column of the second token, or the columns between the
tokens. -/
def codeGap (a b : Token) : List Char :=
  if a.pos.line ≠ b.pos.line then
    List.replicate (b.pos.line - a.pos.line) '\n' ++ List.replicate b.pos.column ' '
  else List.replicate (b.pos.column - (a.pos.column + a.length)) ' '

/-- Tokens, each in a tag, with the white space between them. -/
def codeItems (code : List Char) : List Token → List Item
  | [] => []
  | [a] => [.element (codeTag (textOf code a)) [] [.verbatim (textOf code a)]]
  | a :: b :: ts => .element (codeTag (textOf code a)) [] [.verbatim (textOf code a)] ::
      .verbatim (codeGap a b) :: codeItems code (b :: ts)

/-- The tokens of a program. -/
def programTokens (code : List Char) : Option (List Token) :=
  match tokenize code with
  | some (ts, .ok ()) => some ts
  | _ => none

/-- The value of an argument that is the name of something in a table. -/
def choice {α : Type} (args : List (List Char × Value)) (key : List Char)
    (table : List (List Char × α)) (fallback : α) : Option α :=
  match findArgument args key with
  | none => some fallback
  | some (.ident _ name) => byName table name
  | some (.number ..) => none

/-- The text of a block. -/
def blockText : Option Node → List Char
  | some (.text _ _ t) => t
  | _ => []

/-- Attributes made from arguments; `order` is the order in which a map is walked through. -/
def attributes (order : List (List Char × Value) → List (List Char × Value))
    (args : List (List Char × Value)) : List (List Char × List Char) :=
  (order args).map fun a => (a.1, attributeText a.2)

/-- The tag of a directive: its name, except that `\sup` is not shown as it should be. -/
def htmlTag (name : List Char) : List Char := if name = "sup".toList then "sub".toList else name

/-- The code of a block. -/
def blockCode (args : List (List Char × Value)) : Option Node → List Item
  | some (.text _ _ code) =>
    if choice args "lang".toList languageTable .bms = some .plaintext then [.verbatim code]
    else codeItems code ((programTokens code).getD [])
  | _ => []

/-- The name of an instruction, as a link if there is documentation to link to, and its extension. -/
def instructionItems (args : List (List Char × Value)) (text : List Char) : List Item :=
  (if choice args "arch".toList architectureTable .x86 = some .x86 then
    .element "a".toList [("href".toList, "https://www.felixcloutier.com/x86/".toList ++ text)]
      [.element "code".toList [] [.text text]]
  else .element "code".toList [] [.text text]) ::
  match findArgument args "ext".toList with
  | some (.ident _ name) => [.element "sup".toList [] [.text name]]
  | _ => []

/-- The titles among the directives of a meta block, with position, arguments and block. -/
def titles : List Node → List (Position × List (List Char × Value) × Option Node)
  | [] => []
  | .directive p _ .title _ args block :: ns => (p, args, block) :: titles ns
  | _ :: ns => titles ns

/-- The heading made from the title of the document. -/
def metaItems (order : List (List Char × Value) → List (List Char × Value)) : Option Node → List Item
  | some (.list _ _ children) =>
    match titles children with
    | [] => []
    | (_, args, block) :: _ => [.element "h1".toList (attributes order args) [.text (blockText block)]]
  | _ => []

/-- The items of a directive; `inner` are the items of its block. -/
def directiveItems (order : List (List Char × Value) → List (List Char × Value)) (type : DirType)
    (name : List Char) (args : List (List Char × Value)) (block : Option Node) (inner : List Item) :
    List Item :=
  match type with
  | .meta_ => metaItems order block
  | .code => [.element "code".toList [] []]
  | .code_block => [.block "pre".toList (blockCode args block)]
  | .instruction => instructionItems args (blockText block)
  | .ordered_list | .unordered_list =>
    if block.isNone then [.voidBlock (htmlTag name) []] else [.block (htmlTag name) inner]
  | _ => if block.isNone then [.void (htmlTag name) []]
    else [.element (htmlTag name) (attributes order args) inner]

/-- White space between a node and the next one, if there is something between them in the source. -/
def between (n : Node) : Option Node → List Item
  | none => []
  | some m => if n.span.1.start + n.span.2 = m.span.1.start then [] else [.space]

mutual

/-- The items of an element of a document: a paragraph or a directive. -/
def topItems (order : List (List Char × Value) → List (List Char × Value)) : Node → List Item
  | .list _ _ children => [.block "p".toList (childItems order children)]
  | .directive _ _ type name args block =>
    directiveItems order type name args block (blockItems order block)
  | .text .. => []

/-- The items of nodes in the same paragraph or directive. -/
def childItems (order : List (List Char × Value) → List (List Char × Value)) : List Node → List Item
  | [] => []
  | n :: ns => nodeItems order n ++ between n ns.head? ++ childItems order ns

/-- The items of such a node. -/
def nodeItems (order : List (List Char × Value) → List (List Char × Value)) : Node → List Item
  | .text _ _ s => [.text s]
  | .directive _ _ type name args block =>
    directiveItems order type name args block (blockItems order block)
  | .list .. => []

/-- The items of the block of a directive. -/
def blockItems (order : List (List Char × Value) → List (List Char × Value)) : Option Node → List Item
  | none => []
  | some n => innerItems order n

/-- The items of a block. -/
def innerItems (order : List (List Char × Value) → List (List Char × Value)) : Node → List Item
  | .list _ _ children => childItems order children
  | _ => []

end

/-- The items of content. -/
def contentItems (order : List (List Char × Value) → List (List Char × Value)) : List Node → List Item
  | [] => []
  | n :: ns => topItems order n ++ contentItems order ns

/-- The items of a document. -/
def rootItems (order : List (List Char × Value) → List (List Char × Value)) : Option Node → List Item
  | some (.list _ _ children) => contentItems order children
  | _ => []

/-- A page with the given stylesheets and content. -/
def page (stylesheets : List (List Char)) (content : List Item) : List Item :=
  [.block "html".toList
    [.block "head".toList (stylesheets.map fun sheet => .voidBlock "link".toList
      [("rel".toList, "stylesheet".toList), ("href".toList, sheet)]),
     .block "body".toList content]]

mutual

/-- The text of an item, without tags. -/
def itemText : Item → List Char
  | .text s | .verbatim s => s
  | .space => [' ']
  | .element _ _ children | .block _ children => itemsText children
  | .void .. | .voidBlock .. => []

/-- The text of items. -/
def itemsText : List Item → List Char
  | [] => []
  | i :: is => itemText i ++ itemsText is

end

/-- Code without tabs and carriage returns, without spaces at ends of lines, and without tokens that
span lines. -/
structure Tidy (code : List Char) (ts : List Token) : Prop where
  noTab : '\t' ∉ code
  noReturn : '\r' ∉ code
  noTrailing : ¬ [' ', '\n'] <:+: code
  oneLine : ∀ t ∈ ts, '\n' ∉ textOf code t

/-! ## What can be wrong with a document -/

/-- What can be wrong: an error is reported, an exception is thrown, or a null pointer is dereferenced. -/
inductive Fault where
  | error (e : DocError)
  | crash
  | undefined
deriving DecidableEq, Repr

/-- How the conversion ends at a fault. -/
def Fault.outcome {α : Type} : Fault → Conversion α
  | .error e => .err e
  | .crash => .throws
  | .undefined => .ub

/-- An argument that has to be the name of something in a table. -/
def choiceFaults {α : Type} (args : List (List Char × Value)) (key : List Char)
    (table : List (List Char × α)) (code : DocCode) : List Fault :=
  match findArgument args key with
  | none => []
  | some (.number p _ _ _) => [.error ⟨.number_attribute_not_allowed, p⟩]
  | some (.ident p name) => if (byName table name).isSome then [] else [.error ⟨code, p⟩]

/-- `q` is before `p` on the same line, or on a line before: this is possible with carriage returns. -/
def goesBack (p q : Position) : Bool := !(p.line < q.line || (p.line = q.line && p.column ≤ q.column))

/-- A program that is shown as code. It has to consist of tokens; the tokenizer and the parser of
programs throw for some programs. -/
def programFaults (p : Position) (code : List Char) : List Fault :=
  match tokenize code with
  | some (ts, .ok ()) => if Parse.parse code ts = .throws then [.crash] else []
  | some (_, .err _) => [.error ⟨.code_tokenization_failure, p⟩]
  | _ => [.crash]

/-- Code in a language, of which only two are implemented. -/
def codeFaults (args : List (List Char × Value)) : Option Node → List Fault
  | some (.text p _ code) =>
    match choice args "lang".toList languageTable .bms with
    | some .plaintext => []
    | some .bms => programFaults p code
    | _ => [.crash]
  | _ => []

/-- A meta block: there is at most one title. -/
def metaFaults : Option Node → List Fault
  | some (.list _ _ children) =>
    ((titles children).drop 1).map fun t => .error ⟨.duplicate_meta_entry, t.1⟩
  | _ => []

/-- Directives. `start` says that nothing is in front of the directive, `inner` are the faults of its
block. -/
def directiveFaults (start : Bool) (p : Position) (type : DirType) (args : List (List Char × Value))
    (block : Option Node) (inner : List Fault) : List Fault :=
  match type with
  | .line_break | .horizontal_rule => [.crash]
  | .item | .note | .title | .bms_function | .c_equivalent => [.crash]
  | .meta_ => if start then metaFaults block else [.error ⟨.meta_not_at_start_of_file, p⟩]
  | .code => choiceFaults args "lang".toList languageTable .invalid_language ++
      if block.isSome then [.crash] else []
  | .code_block => choiceFaults args "lang".toList languageTable .invalid_language ++
      codeFaults args block
  | .instruction => choiceFaults args "arch".toList architectureTable .invalid_architecture ++
      (if block.isNone then [.undefined] else []) ++
      match findArgument args "ext".toList with
      | some (.number ..) => [.crash]
      | _ => []
  | .ordered_list | .unordered_list =>
      (if !args.isEmpty && block.isSome then [.crash] else []) ++ inner
  | _ => inner

/-- Two nodes behind each other: two texts, or positions that go back behind a directive. -/
def betweenFaults : Node → Option Node → List Fault
  | .text .., some (.text ..) => [.crash]
  | .directive p _ _ _ _ _, some m => if goesBack p m.span.1 then [.crash] else []
  | _, _ => []

mutual

/-- Elements of a document. -/
def topFaults (start : Bool) : Node → List Fault
  | .list _ _ children => childFaults children
  | .directive p _ type _ args block => directiveFaults start p type args block (blockFaults block)
  | .text .. => []

/-- Nodes in the same paragraph or directive. -/
def childFaults : List Node → List Fault
  | [] => []
  | n :: ns => nodeFaults n ++ betweenFaults n ns.head? ++ childFaults ns

/-- Such a node. -/
def nodeFaults : Node → List Fault
  | .text .. => []
  | .directive p _ type _ args block => directiveFaults false p type args block (blockFaults block)
  | .list .. => []

/-- Blocks of directives. -/
def blockFaults : Option Node → List Fault
  | none => []
  | some n => innerFaults n

/-- Blocks. -/
def innerFaults : Node → List Fault
  | .list _ _ children => childFaults children
  | _ => []

end

/-- Content. -/
def contentFaults (start : Bool) : List Node → List Fault
  | [] => []
  | n :: ns => topFaults start n ++ contentFaults false ns

/-- Documents. -/
def rootFaults : Option Node → List Fault
  | some (.list _ _ children) => contentFaults true children
  | _ => []

/-! ## Documents as they are parsed -/

/-- The name of a directive and its arguments. -/
def SaneHead (type : DirType) (name : List Char) (args : List (List Char × Value)) : Prop :=
  (String.ofList name, type) ∈ directiveTable ∧
    (∀ a ∈ args, Ident a.1 ∧ ∀ p x, a.2 = .ident p x → Ident x)


mutual

/-- Elements of content: paragraphs, which are not empty, and directives. -/
def SaneTop : Node → Prop
  | .list _ _ children => children ≠ [] ∧ SaneNodes .span children
  | .directive _ _ type name args block =>
    environmentOf type = .content ∧ SaneHead type name args ∧ SaneBlock (contentTypeOf type) block
  | .text .. => False

/-- Several elements of content. -/
def SaneTops : List Node → Prop
  | [] => True
  | n :: ns => SaneTop n ∧ SaneTops ns

/-- Nodes within a paragraph, a list or a meta block. -/
def SaneNode (context : ContentType) : Node → Prop
  | .text .. => context = .span
  | .directive _ _ type name args block =>
    environmentOf type = (if context = .span then .paragraph else if context = .list then .list else .meta_) ∧
      SaneHead type name args ∧ SaneBlock (contentTypeOf type) block
  | .list .. => False

/-- Several such nodes. -/
def SaneNodes (context : ContentType) : List Node → Prop
  | [] => True
  | n :: ns => SaneNode context n ∧ SaneNodes context ns

/-- The block of a directive. -/
def SaneBlock (context : ContentType) : Option Node → Prop
  | none => True
  | some n => SaneInner context n

/-- A block. -/
def SaneInner (context : ContentType) : Node → Prop
  | .list _ _ children =>
    ((context = .span ∨ context = .list ∨ context = .meta_) ∧ SaneNodes context children) ∨
      (context = .block ∧ SaneTops children)
  | .text .. => context = .raw ∨ context = .text_span
  | .directive .. => False

end

/-- Documents. -/
def SaneRoot : Option Node → Prop
  | none => True
  | some (.list _ _ children) => SaneTops children
  | some _ => False

/-! ## Documents that are shown as they should be -/

/-- A directive that is shown as a tag has a block if it has arguments. -/
def Closed (type : DirType) (args : List (List Char × Value)) (block : Option Node) : Prop :=
  (isPassthrough type = true ∨ type = .title) → args ≠ [] → block ≠ none

/-- The name of an instruction, which is a part of the link, has no double quote. -/
def Linkable (type : DirType) (block : Option Node) : Prop :=
  type = .instruction → '"' ∉ blockText block

/-- Code has no carriage returns, and its length times four fits into 64 bits. -/
def Showable (type : DirType) (block : Option Node) : Prop :=
  type = .code_block → '\r' ∉ blockText block ∧ 4 * (blockText block).length < 2 ^ 64

/-- A directive whose conversion is implemented: there are no line breaks, horizontal rules, items and
notes; `\c` has no block, and `\instruction` has one. -/
def Supported (type : DirType) (block : Option Node) : Prop :=
  type ≠ .line_break ∧ type ≠ .horizontal_rule ∧ type ≠ .item ∧ type ≠ .note ∧
    (type = .code → block = none) ∧ (type = .instruction → block ≠ none)

/-- What can be shown is closed, linkable and showable. -/
def Presentable (type : DirType) (args : List (List Char × Value)) (block : Option Node) : Prop :=
  Closed type args block ∧ Linkable type block ∧ Showable type block

mutual

/-- For all directives in a node. -/
def Everywhere (P : DirType → List (List Char × Value) → Option Node → Prop) : Node → Prop
  | .list _ _ children => EverywhereIn P children
  | .directive _ _ type _ args block => P type args block ∧ EverywhereBlock P block
  | .text .. => True

/-- For all directives in several nodes. -/
def EverywhereIn (P : DirType → List (List Char × Value) → Option Node → Prop) : List Node → Prop
  | [] => True
  | n :: ns => Everywhere P n ∧ EverywhereIn P ns

/-- For all directives in a block. -/
def EverywhereBlock (P : DirType → List (List Char × Value) → Option Node → Prop) : Option Node → Prop
  | none => True
  | some n => Everywhere P n

end

end Bms.Bmd
