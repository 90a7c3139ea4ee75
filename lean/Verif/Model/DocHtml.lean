import Verif.Model.Bmd
import Verif.Model.Html
import Verif.Model.Parse

/-!
# Conversion of documents to HTML

Transcribes src/bmd/html/doc_to_html.cpp, src/bmd/html/bms_to_html.cpp,
src/bmd/codegen/code_span_type.hpp:30-49, and from src/bmd/enums.cpp and src/bmd/directive_type.hpp
the functions that say how directives are converted.

Simplifications. The arguments of a directive are an unordered map; the order in which the map is
walked through is a parameter `order` of the conversion. The lookup tables by name are lists. The
memory resource is left out. `get<T>` of a variant that holds something else throws
(src/common/variant.hpp:484-491). The writer reports no errors other than exceptions.
-/

namespace Bms.Bmd

/-- `directive_type_formatting_style`, src/bmd/enums.cpp:27-65; `{}` is `pre`. -/
def styleOf : DirType → Style
  | .code_block | .ordered_list | .note | .unordered_list => .block
  | .horizontal_rule => .flat
  | .meta_ | .title | .bms_function | .c_equivalent => .pre
  | _ => .in_line

/-- `directive_type_tag`, src/bmd/enums.cpp:199-235. -/
def tagOf : DirType → List Char
  | .bold => "b".toList
  | .line_break => "br".toList
  | .deleted => "del".toList
  | .heading1 => "h1".toList
  | .heading2 => "h2".toList
  | .heading3 => "h3".toList
  | .heading4 => "h4".toList
  | .heading5 => "h5".toList
  | .heading6 => "h6".toList
  | .horizontal_rule => "hr".toList
  | .italic => "i".toList
  | .keyboard => "kbd".toList
  | .ordered_list => "ol".toList
  | .quoted => "q".toList
  | .strikethrough => "s".toList
  | .subscript => "sub".toList
  | .superscript => "sub".toList
  | .teletype => "tt".toList
  | .underlined => "u".toList
  | .unordered_list => "ul".toList
  | .code => "code".toList
  | .code_block => "div".toList
  | .instruction => "span".toList
  | .note => "div".toList
  | .meta_ => "head".toList
  | .title => "title".toList
  | .bms_function | .c_equivalent | .item => []

/-- `directive_type_is_html_passthrough`, src/bmd/directive_type.hpp:151-154: the types up to
`unordered_list`. -/
def isPassthrough : DirType → Bool
  | .code | .code_block | .instruction | .item | .note | .meta_ | .title | .bms_function
  | .c_equivalent => false
  | _ => true

/-- `directive_type_must_be_empty`, src/bmd/directive_type.hpp:92-100. -/
def mustBeEmpty : DirType → Bool
  | .line_break | .horizontal_rule => true
  | _ => false

/-- `Nested_Language`, doc_to_html.cpp:17-24. -/
inductive Language where
  | plaintext | bms | bmd | c | cxx | rust
deriving DecidableEq, Repr

/-- The table of `nested_language_by_name`, doc_to_html.cpp:32-45. -/
def languageTable : List (List Char × Language) :=
  [("bmd".toList, .bmd), ("bms".toList, .bms), ("c".toList, .c), ("c++".toList, .cxx),
   ("cxx".toList, .cxx), ("cpp".toList, .cxx), ("plain".toList, .plaintext),
   ("plaintext".toList, .plaintext), ("text".toList, .plaintext), ("raw".toList, .plaintext),
   ("rust".toList, .rust)]

/-- `Architecture`, doc_to_html.cpp:56. -/
inductive Architecture where
  | x86 | arm | risc_v | power | sparc | mips | ibm_z
deriving DecidableEq, Repr

/-- The table of `architecture_by_name`, doc_to_html.cpp:64-72. -/
def architectureTable : List (List Char × Architecture) :=
  [("x86".toList, .x86), ("x86_64".toList, .x86), ("x86-64".toList, .x86), ("arm".toList, .arm),
   ("risc_v".toList, .risc_v), ("risc-v".toList, .risc_v), ("power".toList, .power),
   ("power-pc".toList, .power), ("power_pc".toList, .power), ("sparc".toList, .sparc),
   ("mips".toList, .mips), ("ibm_z".toList, .ibm_z), ("ibm-z".toList, .ibm_z)]

/-- `nested_language_by_name` and `architecture_by_name`, doc_to_html.cpp:26-53 and 58-80: nothing is
found for the empty name, which is not in the tables either. -/
def byName {α : Type} (table : List (List Char × α)) (name : List Char) : Option α :=
  (table.find? fun e => e.1 = name).map Prod.snd

/-- `architecture_link_prefix`, doc_to_html.cpp:82-88. -/
def linkPrefix : Architecture → List Char
  | .x86 => "https://www.felixcloutier.com/x86/".toList
  | _ => []

/-- `Document_Error_Code`, src/bmd/html/doc_to_html.hpp:13-33. -/
inductive DocCode where
  | directive_not_allowed | meta_not_at_start_of_file | writer_misuse | duplicate_meta_entry
  | invalid_language | invalid_architecture | number_attribute_not_allowed
  | code_tokenization_failure
deriving DecidableEq, Repr

/-- `Document_Error`, src/bmd/html/doc_to_html.hpp:35-38. -/
structure DocError where
  code : DocCode
  pos : Position
deriving DecidableEq, Repr

/-- `HTML_Converter`, doc_to_html.cpp:109-128, with the writer that it refers to. Of `m_meta` only the
title is read. -/
structure Conv where
  writer : HtmlWriter
  atStart : Bool
  title : List Char
deriving DecidableEq, Repr

/-- How a member function of the converter ends. -/
abbrev Conversion (α : Type) := Outcome DocError α

/-- The converter after something was done with its writer. -/
def Conv.wrote (c : Conv) : Html HtmlWriter → Conversion Conv
  | .ok w => .ok { c with writer := w }
  | .err _ => .throws
  | .throws => .throws
  | .ub => .ub

/-- Calls of the writer. -/
def Conv.call (c : Conv) (calls : List HtmlCall) : Conversion Conv := c.wrote (c.writer.execAll calls)

/-- `m_at_start_of_file = false`. -/
def Conv.started (c : Conv) : Conv := { c with atStart := false }

/-! ## Code -/

/-- `categorize_token_type` and `code_span_type_tag`, bms_to_html.cpp:14-86 and
src/bmd/codegen/code_span_type.hpp:30-49. -/
def spanTag : TokenType → List Char
  | .identifier => "c-idn".toList
  | .left_parenthesis | .right_parenthesis | .left_brace | .right_brace => "c-bra".toList
  | .binary_literal | .octal_literal | .decimal_literal | .hexadecimal_literal => "c-int".toList
  | .string_literal => "c-str".toList
  | .block_comment | .line_comment => "c-com".toList
  | .assign | .equals | .not_equals | .plus | .minus | .multiplication | .division | .remainder
  | .less_than | .greater_than | .less_or_equal | .greater_or_equal | .shift_left | .shift_right
  | .bitwise_and | .bitwise_or | .bitwise_not | .bitwise_xor | .logical_and | .logical_or
  | .logical_not => "c-opr".toList
  | .double_right_arrow => "c-err".toList
  | .at_sign | .dot | .colon | .comma | .semicolon | .right_arrow => "c-pun".toList
  | .keyword_as | .keyword_let | .keyword_const | .keyword_function | .keyword_while | .keyword_if
  | .keyword_else | .keyword_requires | .keyword_return | .keyword_break | .keyword_continue
  | .keyword_static_assert => "c-key".toList
  | .keyword_true | .keyword_false => "c-bol".toList
  | .keyword_uint | .keyword_int | .keyword_bool | .keyword_void => "c-typ".toList

/-- `if (i != 0) { out.write_source_gap(tokens[i - 1].pos, tokens[i].pos, Formatting_Style::pre); }` -/
def tokenGap (prev : Option Token) (t : Token) (w : HtmlWriter) : Html HtmlWriter :=
  match prev with
  | none => .ok w
  | some p => w.writeSourceGap p.pos p.length t.pos .pre

/-- `tokens_to_html`, bms_to_html.cpp:88-103; `prev` is the token before. -/
def tokensToHtml (code : List Char) : Option Token → List Token → HtmlWriter → Html HtmlWriter
  | _, [], w => .ok w
  | prev, t :: ts, w => do
    let w ← tokenGap prev t w
    let w ← w.execAll [.start ⟨spanTag t.type, .pre⟩,
      .text ((code.drop t.pos.start).take t.length) .pre, .close ⟨spanTag t.type, .pre⟩]
    tokensToHtml code (some t) ts w

/-- `bms_inline_code_to_html`, bms_to_html.cpp:107-130. The result says whether the code can be
tokenized; the result of parsing is not used. -/
def bmsToHtml (w : HtmlWriter) (code : List Char) : Html (HtmlWriter × Bool) :=
  match tokenize code with
  | none => .ub
  | some (_, .err _) => do
    let w ← w.exec (.text code .in_line)
    .ok (w, false)
  | some (_, .throws) => .throws
  | some (_, .ub) => .ub
  | some (tokens, .ok ()) =>
    match Parse.parse code tokens with
    | .throws => .throws
    | .diverge => .ub
    | _ => do
      let w ← tokensToHtml code none tokens w
      .ok (w, true)

/-! ## Arguments -/

/-- `attributes.find(key)`. -/
def findArgument (args : List (List Char × Value)) (key : List Char) : Option Value :=
  (args.find? fun a => a.1 = key).map Prod.snd

/-- `enum_by_attribute`, doc_to_html.cpp:470-493. -/
def enumByAttribute {α : Type} (args : List (List Char × Value)) (key : List Char)
    (table : List (List Char × α)) (code : DocCode) (fallback : α) : Conversion α :=
  match findArgument args key with
  | none => .ok fallback
  | some (.number p _ _ _) => .err ⟨.number_attribute_not_allowed, p⟩
  | some (.ident p name) =>
    match byName table name with
    | none => .err ⟨code, p⟩
    | some x => .ok x

/-- The text of an argument in HTML, doc_to_html.cpp:312-321; `std::to_string` is `toString`. -/
def attributeText : Value → List Char
  | .ident _ name => name
  | .number _ _ v _ => (toString v).toList

/-- `begin_tag_with_passed_through_attributes` and `pass_through_attributes`, doc_to_html.cpp:296-330:
with arguments and without a block, the tag is an empty tag. -/
def beginPassedThrough (order : List (List Char × Value) → List (List Char × Value))
    (args : List (List Char × Value)) (block : Option Node) (tag : Tag) : List HtmlCall :=
  if args.isEmpty then [.start tag]
  else
    let as := (order args).map fun a => (a.1, attributeText a.2)
    if block.isNone then [.emptyAttrs tag as] else [.startAttrs tag as]

/-! ## Directives without nested content -/

/-- `convert_nested_code`, doc_to_html.cpp:393-422. -/
def convertNestedCode (language : Language) (block : Option Node) (c : Conv) : Conversion Conv :=
  match block with
  | none => .ok c
  | some (.text p _ code) =>
    match language with
    | .plaintext => c.call [.text code .pre]
    | .bms =>
      match bmsToHtml c.writer code with
      | .ok (w, true) => .ok { c with writer := w }
      | .ok (_, false) => .err ⟨.code_tokenization_failure, p⟩
      | .err _ => .throws
      | .throws => .throws
      | .ub => .ub
    | _ => .throws
  | some _ => .throws

/-- `convert_code_directive`, doc_to_html.cpp:367-391. -/
def convertCode (type : DirType) (args : List (List Char × Value)) (block : Option Node) (c : Conv) :
    Conversion Conv := do
  let language ← enumByAttribute args "lang".toList languageTable .invalid_language .bms
  let tag : Tag := if type = .code then ⟨"code".toList, .in_line⟩ else ⟨"pre".toList, .block⟩
  let c ← c.started.call [.start tag]
  let c ← convertNestedCode language block c
  c.call [.close tag]

/-- The end of `convert_instruction_directive`, doc_to_html.cpp:460-465, with the extension from
l. 437-448: the error is not looked at until `extension->empty()`, which throws. -/
def convertExtension (args : List (List Char × Value)) (c : Conv) : Conversion Conv :=
  match findArgument args "ext".toList with
  | none => .ok c
  | some (.number _ _ _ _) => .throws
  | some (.ident _ []) => .ok c
  | some (.ident _ name) => c.call [.start ⟨"sup".toList, .in_line⟩, .text name .in_line,
      .close ⟨"sup".toList, .in_line⟩]

/-- The calls for the text of an instruction, doc_to_html.cpp:437-458. -/
def instructionCalls (arch : Architecture) (text : List Char) : List HtmlCall :=
  let code : List HtmlCall := [.start ⟨"code".toList, .in_line⟩, .text text .in_line,
    .close ⟨"code".toList, .in_line⟩]
  if (linkPrefix arch).isEmpty then code
  else [.startAttrs ⟨"a".toList, .in_line⟩ [("href".toList, linkPrefix arch ++ text)]] ++ code ++
    [.close ⟨"a".toList, .in_line⟩]

/-- `convert_instruction_directive`, doc_to_html.cpp:405-468. A null block is dereferenced. -/
def convertInstruction (args : List (List Char × Value)) (block : Option Node) (c : Conv) :
    Conversion Conv := do
  let arch ← enumByAttribute args "arch".toList architectureTable .invalid_architecture .x86
  match block with
  | none => .ub
  | some (.text _ _ text) => do
    let c ← c.started.call (instructionCalls arch text)
    convertExtension args c
  | some _ => .throws

/-- `update_metadata_from_directive`, doc_to_html.cpp:495-521. -/
def updateMetadata (p : Position) (type : DirType) (block : Option Node) (c : Conv) :
    Conversion Conv :=
  match block with
  | none => .ok c
  | some b =>
    if type = .title then
      match b with
      | .text _ _ text => .ok { c with title := text }
      | _ => .throws
    else if type = .bms_function ∨ type = .c_equivalent then
      match b with
      | .text _ _ _ => .ok c
      | _ => .throws
    else .err ⟨.directive_not_allowed, p⟩

/-- The title directive: its arguments and its block. -/
abbrev Title := List (List Char × Value) × Option Node

/-- The loop of `convert_meta_directive`, doc_to_html.cpp:344-361; `title` is `title_directive`. -/
def metaLoop : Option Title → List Node → Conv → Conversion (Option Title × Conv)
  | title, [], c => .ok (title, c)
  | title, .directive p _ type _ args block :: ns, c => do
    let c ← updateMetadata p type block c
    if type = .title then
      if title.isSome then .err ⟨.duplicate_meta_entry, p⟩
      else metaLoop (some (args, block)) ns c
    else metaLoop title ns c
  | _, _ :: _, _ => .throws

/-- `convert_meta_directive`, doc_to_html.cpp:332-371. -/
def convertMeta (order : List (List Char × Value) → List (List Char × Value)) (p : Position)
    (block : Option Node) (c : Conv) : Conversion Conv :=
  if !c.atStart then .err ⟨.meta_not_at_start_of_file, p⟩
  else
    let c := c.started
    match block with
    | none => .ok c
    | some (.list _ _ children) => do
      let (title, c) ← metaLoop none children c
      match title with
      | none => .ok c
      | some (args, block) =>
        c.call (beginPassedThrough order args block ⟨"h1".toList, .in_line⟩ ++
          [.text c.title .in_line, .close ⟨"h1".toList, .in_line⟩])
    | some _ => .throws

/-- `convert_html_passthrough_directive`, doc_to_html.cpp:268-294; `inner` is the conversion of the
block. -/
def convertPassthrough (order : List (List Char × Value) → List (List Char × Value))
    (type : DirType) (args : List (List Char × Value)) (block : Option Node)
    (inner : Conv → Conversion Conv) (c : Conv) : Conversion Conv := do
  let c := c.started
  let tag : Tag := ⟨tagOf type, styleOf type⟩
  .assert (block.isSome || !mustBeEmpty type)
  if block.isNone && args.isEmpty then c.call [.empty tag]
  else do
    let c ← c.call (beginPassedThrough order args block tag)
    let c ← inner c
    c.call [.close tag]

/-- `convert_directive`, doc_to_html.cpp:247-266; `inner` is the conversion of the block. -/
def convertDirective (order : List (List Char × Value) → List (List Char × Value)) (p : Position)
    (type : DirType) (args : List (List Char × Value)) (block : Option Node)
    (inner : Conv → Conversion Conv) (c : Conv) : Conversion Conv :=
  if isPassthrough type then convertPassthrough order type args block inner c
  else
    match type with
    | .meta_ => convertMeta order p block c
    | .code | .code_block => convertCode type args block c
    | .instruction => convertInstruction args block c
    | _ => .throws

/-! ## Content -/

/-- Source position of a node and its length. -/
def Node.span : Node → Position × Nat
  | .list p len _ => (p, len)
  | .directive p len _ _ _ _ => (p, len)
  | .text p len _ => (p, len)

/-- The gap behind a directive, doc_to_html.cpp:181-186. -/
def gapBehind (prev : Option Node) (n : Node) (c : Conv) : Conversion Conv :=
  match prev with
  | some (.directive p len _ _ _ _) => c.wrote (c.writer.writeSourceGap p len n.span.1 .in_line)
  | _ => .ok c

/-- `convert_text` and the white space behind a text, doc_to_html.cpp:188-212 and 239-244. -/
def convertText (style : Style) (p : Position) (len : Nat) (text : List Char) (next : Option Node)
    (c : Conv) : Conversion Conv :=
  match c.writer.writeInnerText text style with
  | .ok (w, lines) =>
    let c := { c.started with writer := w }
    match next with
    | none => .ok c
    | some (.directive q _ _ _ _ _) =>
      if p.start + len = q.start then .ok c
      else c.call [.whitespace (if q.line + 1 > p.line + lines then '\n' else ' ') 1]
    | some _ => .throws
  | .err _ => .throws
  | .throws => .throws
  | .ub => .ub

mutual

/-- The loop of `convert_content`, doc_to_html.cpp:130-166. -/
def convertContent (order : List (List Char × Value) → List (List Char × Value)) :
    List Node → Conv → Conversion Conv
  | [], c => .ok c
  | n :: ns, c => do
    let c ← convertTop order n c
    convertContent order ns c

/-- One element of content, doc_to_html.cpp:135-163. -/
def convertTop (order : List (List Char × Value) → List (List Char × Value)) :
    Node → Conv → Conversion Conv
  | .list _ _ children, c => do
    .assert (!children.isEmpty)
    let c ← c.call [.start ⟨"p".toList, .block⟩]
    let c ← convertChildren order .in_line none children c
    c.call [.close ⟨"p".toList, .block⟩]
  | .directive p _ type _ args block, c => do
    .assert (environmentOf type = .content)
    convertDirective order p type args block
      (convertBlock order (styleOf type) (contentTypeOf type) block) c
  | .text _ _ _, _ => .throws

/-- The loop of `convert_list`, doc_to_html.cpp:168-237; `prev` is the node before. -/
def convertChildren (order : List (List Char × Value) → List (List Char × Value)) (style : Style) :
    Option Node → List Node → Conv → Conversion Conv
  | _, [], c => .ok c
  | prev, n :: ns, c => do
    let c ← gapBehind prev n c
    let c ← convertChild order style ns.head? n c
    convertChildren order style (some n) ns c

/-- One node of a list, doc_to_html.cpp:188-234; `next` is the node behind. -/
def convertChild (order : List (List Char × Value) → List (List Char × Value)) (style : Style)
    (next : Option Node) : Node → Conv → Conversion Conv
  | .text p len text, c => convertText style p len text next c
  | .directive p _ type _ args block, c => do
    .assert (environmentOf type ≠ .content)
    convertDirective order p type args block
      (convertBlock order (styleOf type) (contentTypeOf type) block) c
  | .list _ _ _, _ => .throws

/-- `convert_block`, doc_to_html.cpp:523-551. -/
def convertBlock (order : List (List Char × Value) → List (List Char × Value)) (style : Style)
    (context : ContentType) : Option Node → Conv → Conversion Conv
  | none, c => .ok c
  | some n, c => convertInner order style context n c

/-- `convert_block` for a block, doc_to_html.cpp:530-550. -/
def convertInner (order : List (List Char × Value) → List (List Char × Value)) (style : Style)
    (context : ContentType) : Node → Conv → Conversion Conv
  | .list _ _ children, c =>
    if context = .span ∨ context = .meta_ ∨ context = .list then
      convertChildren order style none children c
    else if context = .block then convertContent order children c
    else .throws
  | .text p len text, c =>
    if context = .raw ∨ context = .text_span then convertText style p len text none c
    else .throws
  | .directive _ _ _ _ _ _, _ => .throws

end

/-! ## Documents -/

/-- `Document_Options`, src/bmd/html/doc_to_html.hpp:40-43. -/
structure DocOptions where
  indentWidth : Nat
  stylesheets : List (List Char)

/-- The calls in front of the content, doc_to_html.cpp:567-584. -/
def headCalls (stylesheets : List (List Char)) : List HtmlCall :=
  [.preamble, .start ⟨"html".toList, .flat⟩, .start ⟨"head".toList, .block⟩] ++
  stylesheets.map (fun sheet => .emptyAttrs ⟨"link".toList, .block⟩
    [("rel".toList, "stylesheet".toList), ("href".toList, sheet)]) ++
  [.close ⟨"head".toList, .block⟩, .start ⟨"body".toList, .flat⟩]

/-- The content of a document, doc_to_html.cpp:586-592. -/
def convertRoot (order : List (List Char × Value) → List (List Char × Value)) (root : Option Node)
    (c : Conv) : Conversion Conv :=
  match root with
  | none => .ok c
  | some (.list _ _ children) => convertContent order children c
  | some _ => .throws

/-- `doc_to_html`, doc_to_html.cpp:555-600; the result is the writer. -/
def docToHtml (order : List (List Char × Value) → List (List Char × Value)) (options : DocOptions)
    (root : Option Node) : Conversion HtmlWriter := do
  let c : Conv := ⟨HtmlWriter.create options.indentWidth, true, []⟩
  let c ← c.call (headCalls options.stylesheets)
  let c ← convertRoot order root c
  let c ← c.call [.close ⟨"body".toList, .flat⟩, .close ⟨"html".toList, .flat⟩]
  if !c.writer.isDone then .err ⟨.writer_misuse, ⟨0, 0, 0⟩⟩
  else .ok c.writer

end Bms.Bmd
