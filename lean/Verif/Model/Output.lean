import Verif.Model.CodeString
import Verif.Model.Html
import Verif.Model.Diagnostics

/-!
# Writing code and pages to the terminal, and reading files

Transcribes src/cli/glue.cpp without the table of languages, and src/common/io.cpp.

Simplifications.  Streams are as in Model/Diagnostics: lists of what was written, which do not fail.
A stream that is read from gives all bytes of a file and then ends; that it cannot be opened is part of
Model/Cli.
-/

namespace Bms

namespace Output

open Diag

/-- More colours of src/common/ansi.hpp:8-28. -/
def ansiRed : Piece := .ansi "\x1B[31m".toList
def ansiGreen : Piece := .ansi "\x1B[32m".toList
def ansiYellow : Piece := .ansi "\x1B[33m".toList
def ansiHBlack : Piece := .ansi "\x1B[0;90m".toList
def ansiHBlue : Piece := .ansi "\x1B[0;94m".toList
def ansiHMagenta : Piece := .ansi "\x1B[0;95m".toList
def ansiHCyan : Piece := .ansi "\x1B[0;96m".toList

/-- `highlight_color_of(HTML_Token_Type)`, src/cli/glue.cpp:18-40. -/
def htmlColor : HtmlTok → Piece
  | .whitespace => ansiReset
  | .inner_text => ansiReset
  | .preamble => ansiHBlack
  | .comment => ansiHBlack
  | .tag_identifier => ansiHBlue
  | .tag_bracket => ansiBlack
  | .attribute_equal => ansiBlack
  | .attribute_comma => ansiBlack
  | .attribute_key => ansiHCyan
  | .attribute_quote => ansiHGreen
  | .attribute_value => ansiHGreen

/-- `highlight_color_of(Code_Span_Type)`, src/cli/glue.cpp:42-65. -/
def codeColor : SpanType → Piece
  | .identifier => ansiHWhite
  | .type_name => ansiHBlue
  | .number => ansiHCyan
  | .string => ansiHGreen
  | .comment => ansiHBlack
  | .operation => ansiHBlack
  | .bracket => ansiBlack
  | .punctuation => ansiBlack
  | .keyword => ansiHMagenta
  | .boolean_literal => ansiHMagenta
  | .error => ansiHRed

/-- `Colored_HTML_Consumer::write`, src/cli/glue.cpp:110-130: the three functions for one token each. -/
def coloredWrite (token : HtmlTok × List Char) : Out := [htmlColor token.1, .text token.2]

/-- `Simple_HTML_Consumer::write`, src/cli/glue.cpp:132-149. -/
def simpleWrite (token : HtmlTok × List Char) : Out := [.text token.2]

/-- What `Colored_HTML_Consumer` writes. -/
def coloredPage (tokens : List (HtmlTok × List Char)) : Out := tokens.flatMap coloredWrite

/-- What `Simple_HTML_Consumer` writes. -/
def simplePage (tokens : List (HtmlTok × List Char)) : Out := tokens.flatMap simpleWrite

/-- `std::string_view::substr`, which throws if the position is behind the end. -/
def substr (text : List Char) (pos n : Nat) : Print (List Char) :=
  if text.length < pos then .throws else .ok ((text.drop pos).take n)

/-- The text in front of a span, src/cli/glue.cpp:177-179. -/
def printGap (text : List Char) (previousEnd start : Nat) : Print Out :=
  if previousEnd ≠ start then do
    let s ← substr text previousEnd (start - previousEnd)
    .ok [Piece.text s]
  else .ok []

/-- `print_code_string`, src/cli/glue.cpp:174-183: the loop, with the end of the span before. -/
def printSpans (text : List Char) : Nat → List CodeSpan → Print (Nat × Out)
  | previousEnd, [] => .ok (previousEnd, [])
  | previousEnd, span :: spans => do
    .assert (decide (previousEnd ≤ span.start))
    let gap ← printGap text previousEnd span.start
    let s ← substr text span.start span.length
    let (e, rest) ← printSpans text (span.start + span.length) spans
    .ok (e, gap ++ [codeColor span.type, .text s, ansiReset] ++ rest)

/-- `print_code_string`, src/cli/glue.cpp:166-190. -/
def printCodeString (string : CodeString) (colors : Bool) : Print Out :=
  if colors = false then .ok [.text string.text]
  else do
    let (e, out) ← printSpans string.text 0 string.spans
    if e ≠ string.text.length then do
      let s ← substr string.text e string.text.length
      .ok (out ++ [.text s])
    else .ok out

/-- The state of `file_to_string`: what has not been read yet, the buffer and the result. -/
structure Reading where
  rest : List Char
  buf : List Char
  out : List Char

/-- `stream.read(&buf[0], read_size)`: as many bytes as there are, at most the size of the buffer, which
replace the beginning of it; whether all could be read, and `gcount()`. -/
def read (size : Nat) (r : Reading) : Reading × Bool × Nat :=
  let got := r.rest.take size
  ({ r with rest := r.rest.drop size, buf := got ++ r.buf.drop got.length },
    decide (size ≤ r.rest.length), got.length)

/-- `out.append(buf, 0, n)`. -/
def append (r : Reading) (n : Nat) : Reading := { r with out := r.out ++ r.buf.take n }

/-- The loop of `file_to_string`, src/common/io.cpp:22-25. -/
def readAll (size : Nat) : Nat → Reading → Option (List Char)
  | 0, _ => none
  | n + 1, r =>
    match read size r with
    | (r', true, count) => readAll size n (append r' count)
    | (r', false, count) => some (append r' count).out

/-- `read_size`, src/common/io.cpp:11. -/
def readSize : Nat := 4096

/-- `file_to_string`, src/common/io.cpp:8-27, for a file that can be opened; `n` limits the iterations. -/
def fileToString (n : Nat) (content : List Char) : Option (List Char) :=
  readAll readSize n ⟨content, List.replicate readSize '\x00', []⟩

end Output

end Bms
