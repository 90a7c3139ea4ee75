import Verif.Model.Outcome
import Verif.Model.Text
import Verif.Model.Tokenize

/-!
# The HTML writer

Transcribes src/bmd/html/html_writer.hpp and src/bmd/html/html_writer.cpp.

Simplifications.  The token consumer (src/bmd/html/token_consumer.hpp) is the list of everything
passed to it, in order; `write(c, n, type)` is one entry with `n` copies of `c`.
`m_depth` does not overflow.  `m_indent_depth` is a `Size` whose decrement at zero wraps around;
the product with the indentation width is taken modulo 2^64.  `Attribute_Writer` only
forwards to the writer with the style given to `begin_tag_with_attributes`; its destructor is
`HtmlWriter.dropAttributes`.
-/

namespace Bms

/-- `Formatting_Style`, src/bmd/html/html_writer.hpp:23-36. -/
inductive Style where
  | pre
  | in_line
  | flat
  | block
deriving DecidableEq, Repr

/-- `is_block_like`, src/bmd/html/html_writer.hpp:38-41. -/
def Style.isBlockLike (s : Style) : Bool := s = .flat || s = .block

/-- `HTML_Token_Type`, src/bmd/html/html_writer.hpp:43-55. -/
inductive HtmlTok where
  | whitespace
  | preamble
  | comment
  | tag_identifier
  | tag_bracket
  | attribute_key
  | attribute_equal
  | attribute_comma
  | attribute_quote
  | attribute_value
  | inner_text
deriving DecidableEq, Repr

/-- `HTML_Writer::State`, src/bmd/html/html_writer.hpp:124. -/
inductive HtmlState where
  | initial
  | attributes
  | normal
  | new_line
deriving DecidableEq, Repr

/-- `Tag_Properties`, src/bmd/html/html_writer.hpp:100-103. -/
structure Tag where
  id : List Char
  style : Style
deriving DecidableEq, Repr

/-- `HTML_Writer`, src/bmd/html/html_writer.hpp:116-126, with everything written so far. -/
structure HtmlWriter where
  out : List (HtmlTok × List Char)
  indentWidth : Nat
  state : HtmlState
  depth : Nat
  indentDepth : Nat
deriving DecidableEq, Repr

/-- What calls of the writer's member functions do: they return a value or throw. -/
abbrev Html (α : Type) := Outcome Unit α

namespace HtmlWriter

/-- The constructor, src/bmd/html/html_writer.cpp:10-14. -/
def create (indentWidth : Nat) : HtmlWriter := ⟨[], indentWidth, .initial, 0, 0⟩

/-- `m_out.write(text, type)`, src/bmd/html/token_consumer.hpp:17. -/
def write (w : HtmlWriter) (text : List Char) (type : HtmlTok) : HtmlWriter :=
  { w with out := w.out ++ [(type, text)] }

/-- `m_out.write(c, length, type)`, src/bmd/html/token_consumer.hpp:16. -/
def writeN (w : HtmlWriter) (c : Char) (n : Nat) (type : HtmlTok) : HtmlWriter :=
  w.write (List.replicate n c) type

/-- `is_done`, src/bmd/html/html_writer.hpp:144-148. -/
def isDone (w : HtmlWriter) : Bool :=
  (w.state ≠ .normal || w.state = .new_line) && w.depth = 0 && w.indentDepth = 0

/-- `break_line`, src/bmd/html/html_writer.cpp:16-22. -/
def breakLine (w : HtmlWriter) : Html HtmlWriter := do
  .assert (w.state ≠ .attributes)
  .ok { w.write ['\n'] .whitespace with state := .new_line }

/-- `if (is_block_like(style)) break_line();` -/
def breakIf (style : Style) (w : HtmlWriter) : Html HtmlWriter :=
  if style.isBlockLike then w.breakLine else .ok w

/-- `indent`, src/bmd/html/html_writer.cpp:24-33. -/
def indent (w : HtmlWriter) (style : Style) : Html HtmlWriter := do
  let w ← if w.state ≠ .new_line ∧ style.isBlockLike = true then w.breakLine else .ok w
  let w := if w.state = .new_line ∧ style ≠ .pre then
    w.writeN ' ' (w.indentDepth * w.indentWidth % 2 ^ 64) .whitespace else w
  .ok { w with state := .normal }

/-- `text.find_first_of("<>")`; `none` is `npos`. -/
def findBracket : List Char → Option Nat
  | [] => none
  | c :: cs => if c = '<' ∨ c = '>' then some 0 else (findBracket cs).map (· + 1)

/-- The loop of `write_escaped_text`, src/bmd/html/html_writer.cpp:39-57.  The first argument
bounds the number of iterations; each iteration consumes a character, so the length of the text
plus one is enough. -/
def escapeLoop : Nat → HtmlWriter → List Char → Html HtmlWriter
  | 0, _, _ => .ub
  | fuel + 1, w, text =>
    if text.isEmpty then .ok w
    else
      match findBracket text with
      | none => .ok (w.write text .inner_text)
      | some pos =>
        let w := w.write (text.take pos) .inner_text
        if text[pos]? = some '<' then
          escapeLoop fuel (w.write "&lt;".toList .inner_text) (text.drop (pos + 1))
        else if text[pos]? = some '>' then
          escapeLoop fuel (w.write "&gt;".toList .inner_text) (text.drop (pos + 1))
        else .throws

/-- `write_escaped_text`, src/bmd/html/html_writer.cpp:35-59. -/
def writeEscapedText (w : HtmlWriter) (text : List Char) : Html HtmlWriter := do
  .assert (w.state = .new_line || w.state = .normal)
  let w ← escapeLoop (text.length + 1) w text
  .ok { w with state := .normal }

/-- `write_whitespace`, src/bmd/html/html_writer.cpp:61-69. -/
def writeWhitespace (w : HtmlWriter) (c : Char) (length : Nat) : Html HtmlWriter := do
  .assert (w.state ≠ .attributes && w.state ≠ .initial)
  .assert (isSpace c)
  .ok { w.writeN c length .whitespace with state := .normal }

/-- `write_preamble`, src/bmd/html/html_writer.cpp:71-81. -/
def writePreamble (w : HtmlWriter) : Html HtmlWriter := do
  .assert (w.state = .initial)
  (((w.write "<!".toList .tag_bracket).write "DOCTYPE html".toList .preamble).write
    ['>'] .tag_bracket).breakLine

/-- The check in front of every function that writes a tag. -/
def checkTag (w : HtmlWriter) (tag : Tag) : Html Unit := do
  .assert (w.state = .normal || w.state = .new_line)
  .assert (isHtmlIdentifier tag.id)

/-- `write_empty_tag`, src/bmd/html/html_writer.cpp:83-97. -/
def writeEmptyTag (w : HtmlWriter) (tag : Tag) : Html HtmlWriter := do
  w.checkTag tag
  let w ← w.indent tag.style
  breakIf tag.style
    (((w.write ['<'] .tag_bracket).write tag.id .tag_identifier).write "/>".toList .tag_bracket)

/-- `++m_indent_depth` for block style. -/
def deeper (style : Style) (w : HtmlWriter) : HtmlWriter :=
  if style = .block then { w with indentDepth := (w.indentDepth + 1) % 2 ^ 64 } else w

/-- `--m_indent_depth` for block style; the decrement wraps around. -/
def shallower (style : Style) (w : HtmlWriter) : HtmlWriter :=
  if style = .block then { w with indentDepth := (w.indentDepth + (2 ^ 64 - 1)) % 2 ^ 64 } else w

/-- `begin_tag`, src/bmd/html/html_writer.cpp:99-117. -/
def beginTag (w : HtmlWriter) (tag : Tag) : Html HtmlWriter := do
  w.checkTag tag
  let w ← w.indent tag.style
  let w ← breakIf tag.style
    (((w.write ['<'] .tag_bracket).write tag.id .tag_identifier).write ['>'] .tag_bracket)
  let w := deeper tag.style w
  .ok { w with depth := w.depth + 1 }

/-- `begin_tag_with_attributes`, src/bmd/html/html_writer.cpp:119-131. -/
def beginTagWithAttributes (w : HtmlWriter) (tag : Tag) : Html HtmlWriter := do
  w.checkTag tag
  let w ← w.indent tag.style
  .ok { (w.write ['<'] .tag_bracket).write tag.id .tag_bracket with state := .attributes }

/-- `end_tag`, src/bmd/html/html_writer.cpp:133-153. -/
def endTag (w : HtmlWriter) (tag : Tag) : Html HtmlWriter := do
  w.checkTag tag
  .assert (w.depth ≠ 0)
  let w := shallower tag.style w
  let w ← w.indent tag.style
  let w ← breakIf tag.style
    (((w.write "</".toList .tag_bracket).write tag.id .tag_identifier).write ['>'] .tag_bracket)
  .ok { w with depth := w.depth - 1 }

/-- `write_comment_tag`, src/bmd/html/html_writer.cpp:155-169. -/
def writeCommentTag (w : HtmlWriter) (comment : List Char) (style : Style) : Html HtmlWriter := do
  .assert (w.state ≠ .attributes)
  .assert (findSub "-->".toList comment = none)
  let w ← w.indent style
  breakIf style
    (((w.write "<!--".toList .tag_bracket).write comment .comment).write "-->".toList .tag_bracket)

/-- The loop of `write_inner_text`, src/bmd/html/html_writer.cpp:182-195; the first argument
bounds the number of iterations. -/
def innerTextLoop (style : Style) : Nat → HtmlWriter → List Char → Nat → Html (HtmlWriter × Nat)
  | 0, _, _, _ => .ub
  | fuel + 1, w, text, count =>
    if text.isEmpty then .ok (w, count)
    else do
      let w ← w.indent style
      match findChar '\n' text with
      | none => do
        let w ← w.writeEscapedText text
        .ok (w, count + 1)
      | some pos => do
        let w ← w.writeEscapedText (text.take pos)
        let w ← w.breakLine
        innerTextLoop style fuel w (text.drop (pos + 1)) (count + 1)

/-- `write_inner_text`, src/bmd/html/html_writer.cpp:171-198. -/
def writeInnerText (w : HtmlWriter) (text : List Char) (style : Style) :
    Html (HtmlWriter × Nat) := do
  .assert (w.state = .normal || w.state = .new_line)
  if style = .pre then do
    let w ← w.writeEscapedText text
    .ok (w, 1)
  else innerTextLoop style (text.length + 1) w text 0

/-- `requires_quotes_in_attribute`, src/bmd/html/html_writer.hpp:15-18. -/
def requiresQuotes (value : List Char) : Bool :=
  value.any ("\"/'`=<> ".toList.contains ·)

/-- `write_attribute`, src/bmd/html/html_writer.cpp:200-221. -/
def writeAttribute (w : HtmlWriter) (key value : List Char) : Html HtmlWriter := do
  .assert (w.state = .attributes)
  .assert (isHtmlIdentifier key)
  let w := (w.write [' '] .whitespace).write key .attribute_key
  if value.isEmpty then .ok w
  else
    let w := w.write ['='] .attribute_equal
    if requiresQuotes value then
      .ok (((w.write ['"'] .attribute_quote).write value .attribute_value).write
        ['"'] .attribute_quote)
    else .ok (w.write value .attribute_value)

/-- `end_attributes`, src/bmd/html/html_writer.cpp:223-242. -/
def endAttributes (w : HtmlWriter) (style : Style) : Html HtmlWriter := do
  .assert (w.state = .attributes)
  let w := w.write ['>'] .tag_bracket
  let w ← if style.isBlockLike then do
      let w ← w.breakLine
      .ok (deeper style w)
    else .ok { w with state := .normal }
  .ok { w with depth := w.depth + 1 }

/-- `end_empty_tag_attributes`, src/bmd/html/html_writer.cpp:244-256. -/
def endEmptyTagAttributes (w : HtmlWriter) (style : Style) : Html HtmlWriter := do
  .assert (w.state = .attributes)
  breakIf style { w.write "/>".toList .tag_bracket with state := .normal }

/-- `~Attribute_Writer`, src/bmd/html/html_writer.hpp:237-241. -/
def dropAttributes (w : HtmlWriter) : Html HtmlWriter := do
  .assert (w.state ≠ .attributes)
  .ok w

/-- `write_source_gap`, src/bmd/html/html_writer.cpp:258-282.  A span is a position together with a
length.  The subtraction of the column where the first span ends wraps around. -/
def writeSourceGap (w : HtmlWriter) (first : Position) (firstLength : Nat) (second : Position)
    (style : Style) : Html HtmlWriter := do
  .assert (w.state ≠ .attributes && w.state ≠ .initial)
  .assert (first.line < second.line ||
    (first.line = second.line && first.column ≤ second.column))
  if style = .pre then
    if first.line ≠ second.line then
      let w := w.writeN '\n' (second.line - first.line) .whitespace
      if second.column ≠ 0 then .ok (w.writeN ' ' second.column .whitespace) else .ok w
    else if first.column ≠ second.column then
      .ok (w.writeN ' ' ((second.column + 2 ^ 64 - (first.column + firstLength)) % 2 ^ 64)
        .whitespace)
    else .ok w
  else if first.start + firstLength ≠ second.start then .ok (w.write [' '] .whitespace)
  else .ok w

/-- Calls of `Attribute_Writer::write_attribute`, src/bmd/html/html_writer.hpp:218-223. -/
def writeAttributes : HtmlWriter → List (List Char × List Char) → Html HtmlWriter
  | w, [] => .ok w
  | w, (k, v) :: as => do
    let w ← w.writeAttribute k v
    writeAttributes w as

end HtmlWriter

/-! ## Sequences of calls -/

/-- A use of the public interface of the writer.  The two attribute forms are the complete use of an
`Attribute_Writer`: creation, `write_attribute` for each attribute, `end` or `end_empty`, and
destruction. -/
inductive HtmlCall where
  | preamble
  | text (s : List Char) (style : Style)
  | whitespace (c : Char) (n : Nat)
  | comment (s : List Char) (style : Style)
  | empty (tag : Tag)
  | emptyAttrs (tag : Tag) (as : List (List Char × List Char))
  | start (tag : Tag)
  | startAttrs (tag : Tag) (as : List (List Char × List Char))
  | close (tag : Tag)
deriving DecidableEq, Repr

namespace HtmlWriter

/-- One call. -/
def exec (w : HtmlWriter) : HtmlCall → Html HtmlWriter
  | .preamble => w.writePreamble
  | .text s style => (w.writeInnerText s style).map Prod.fst
  | .whitespace c n => w.writeWhitespace c n
  | .comment s style => w.writeCommentTag s style
  | .empty tag => w.writeEmptyTag tag
  | .emptyAttrs tag as => do
    let w ← w.beginTagWithAttributes tag
    let w ← w.writeAttributes as
    let w ← w.endEmptyTagAttributes tag.style
    w.dropAttributes
  | .start tag => w.beginTag tag
  | .startAttrs tag as => do
    let w ← w.beginTagWithAttributes tag
    let w ← w.writeAttributes as
    let w ← w.endAttributes tag.style
    w.dropAttributes
  | .close tag => w.endTag tag

/-- Calls in order. -/
def execAll (w : HtmlWriter) : List HtmlCall → Html HtmlWriter
  | [] => .ok w
  | c :: cs => do
    let w ← w.exec c
    w.execAll cs

/-- Everything written so far, as one text. -/
def text (w : HtmlWriter) : List Char := w.out.flatMap Prod.snd

end HtmlWriter

end Bms
