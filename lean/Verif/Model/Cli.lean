import Verif.Model.AnalysisReport
import Verif.Model.Annotations
import Verif.Model.Dump
import Verif.Model.Generate
import Verif.Model.Output

/-!
# The command line program

Transcribes src/cli/main.cpp and src/cli/compile.cpp, and `write_html` of src/cli/glue.cpp.

Simplifications:
* The world outside is given by `World`: the content of files, and which files can be opened for writing.
  Standard output can always be written to, so the message for a failed standard output
  (main.cpp:81-84) is left out.
* What is shown before an exception is thrown, and the parts of a page that are written before its conversion
  fails, are not recorded. The message for an exception names places in the code of the program and is left
  out, too; `Ending.internal` says that it is shown and that the status is 1 (main.cpp:221-236).
* Code is shown without colours; C77 says what a terminal shows of a code string.
* Which call in the code makes an error of analysis, and with which names and causes, is left open:
  `World.site` chooses. The properties say what they assume about the choice.
* Memory does not run out, and the stack is large enough.
-/

namespace Bms
namespace Cli

open Diag Output

/-- What can be found under a path. -/
inductive File where
  /-- It cannot be opened for reading. -/
  | missing
  /-- It can be opened, but reading fails, as for directories. -/
  | unreadable
  | content (text : List Char)
deriving DecidableEq, Repr

/-- Why analysis fails. -/
inductive Failure where
  | annotation (e : Annot.Error)
  | check (e : AErr)

/-- What a run of the program depends on, apart from its arguments. -/
structure World where
  file : List Char → File
  writable : List Char → Bool
  /-- The order in which a hash map is visited. -/
  order : List (List Char × Bmd.Value) → List (List Char × Bmd.Value)
  /-- The error that is made when analysis fails. -/
  site : List Parse.Node → Failure → Report.Site
  /-- Limits the steps. -/
  fuel : Nat

/-- How the program ends. -/
inductive Ending where
  | exit (status : Nat)
  /-- An exception was caught in `main`; the status is 1. -/
  | internal
  | ub
  /-- The steps were not enough. -/
  | unfinished
deriving DecidableEq, Repr

/-- What has become of the output file. -/
inductive Written where
  | untouched
  /-- It was emptied when it was opened, and then the page was not completed. -/
  | begun
  | whole (text : List Char)
deriving DecidableEq, Repr

/-- A run of the program. -/
structure Run where
  shown : Out
  written : Written
  ending : Ending
deriving DecidableEq, Repr

namespace Run

def exit (status : Nat) (shown : Out) : Run := ⟨shown, .untouched, .exit status⟩
def internal : Run := ⟨[], .untouched, .internal⟩
def ub : Run := ⟨[], .untouched, .ub⟩
def unfinished : Run := ⟨[], .untouched, .unfinished⟩

/-- Something is printed, and the program ends. -/
def printed {ε : Type} (status : Nat) : Outcome ε Out → Run
  | .ok out => exit status out
  | .err _ => unfinished
  | .throws => internal
  | .ub => ub

end Run

/-- Part of a run: it can end the program. -/
abbrev Step := Except Run

/-- `print_io_error` for `cannot_open`, src/common/diagnostics.cpp:797-802, 631-641 and 390-394. -/
def cannotOpen (file : List Char) : Out :=
  [ansiBlack, .text file, lit ":", ansiReset, lit ": ", lit "Failed to open file.", lit "\n"]

/-- `load_file`, compile.cpp:29-37, with `file_to_string`; errors in reading are exceptions (io.cpp:13). -/
def loadFile (w : World) (file : List Char) : Step (List Char) :=
  match w.file file with
  | .missing => .error (.exit 1 (cannotOpen file))
  | .unreadable => .error .internal
  | .content text =>
    match fileToString w.fuel text with
    | some source => .ok source
    | none => .error .unfinished

/-- `tokenize_bms_file`, compile.cpp:16-27. -/
def tokenizeFile (source file : List Char) : Step (List Token) :=
  match tokenize source with
  | some (ts, .ok ()) => .ok ts
  | some (_, .err e) => .error (.printed 1 (printTokenizeError file source e true))
  | some (_, .throws) => .error .internal
  | some (_, .ub) => .error .ub
  | none => .error .unfinished

/-- `parse_bmd_file`, compile.cpp:39-50. -/
def parseDocument (w : World) (source file : List Char) : Step (Option Bmd.Node) :=
  match Bmd.parse w.fuel source with
  | .ok root _ => .ok root
  | .err code rule pos => .error (.printed 1 (printDocumentParseError file source code rule pos true))
  | .throws => .error .internal
  | .ub => .error .ub
  | .diverge => .error .unfinished

/-- `parse_tokenized`, compile.cpp:52-66. -/
def parseTokenized (ts : List Token) (source file : List Char) : Step (List Parse.Node × Nat) :=
  match Parse.parse source ts with
  | .ok nodes root => .ok (nodes, root)
  | .err e => .error (.printed 1 (printParseError file source e true))
  | .throws => .error .internal
  | .diverge => .error .unfinished

/-- `analyze_parsed`, compile.cpp:68-80, with the order of the passes in src/bms/analyze.cpp:1115-1127. -/
def analyzeParsed (w : World) (nodes : List Parse.Node) (root : Nat) (source file : List Char) :
    Step (List ADecl) :=
  let report (f : Failure) : Run := .printed 1 (Report.printAnalysisError file source (w.site nodes f).error true)
  match Build.program nodes root with
  | .ok ds =>
    match Annot.resolve nodes root with
    | .ok _ =>
      match Ana.program w.fuel ds (nodes.length + 1) with
      | .ok _ s => .ok (ds.map (Ana.result s))
      | .err e => .error (report (.check e))
      | .throws => .error .internal
      | .ub => .error .ub
      | .timeout => .error .unfinished
    | .err (some e) => .error (report (.annotation e))
    | .err none => .error .unfinished
    | .throws => .error .internal
    | .ub => .error .ub
  | .err _ => .error .unfinished
  | .throws => .error .internal
  | .ub => .error .ub

/-- `ends_with`. -/
def endsWith (suffix file : List Char) : Bool := suffix.isSuffixOf file

/-- What is left of a run when no step ended it. -/
def finish : Step Run → Run
  | .ok r => r
  | .error r => r

/-- `dump_tokens`, main.cpp:35-45. -/
def dumpTokens (w : World) (file : List Char) : Run :=
  if !endsWith ".bms".toList file then .exit 1 [ansiRed, lit "Error: file must have '.bms' suffix\n"]
  else finish do
    let source ← loadFile w file
    let ts ← tokenizeFile source file
    return .printed 0 (Dump.printTokens source ts)

/-- `Error: unrecognized file suffix`, main.cpp:64 and 110. -/
def unknownSuffix (file : List Char) : Run :=
  .exit 1 [ansiRed, lit "Error: unrecognized file suffix for: ", .text file, lit "\n"]

/-- `dump_ast`, main.cpp:47-66. -/
def dumpAst (w : World) (file : List Char) : Run :=
  finish do
    let source ← loadFile w file
    if endsWith ".bms".toList file then do
      let ts ← tokenizeFile source file
      let p ← parseTokenized ts source file
      return .printed 0 (Dump.printProgram source p.1 p.2 2 true)
    else if endsWith ".bmd".toList file then do
      let root ← parseDocument w source file
      return .printed 0 (Dump.printDocument w.order source root 2 30 true)
    else return unknownSuffix file

/-- The options of `write_html`, glue.cpp:150-162. -/
def pageOptions : Bmd.DocOptions := ⟨2, ["/css/code.css".toList, "/css/main.css".toList]⟩

/-- The conversion in `to_html`, main.cpp:78-107; `page` is for the page, and `begun` for the output file when
the conversion fails. -/
def convert (w : World) (root : Option Bmd.Node) (source file : List Char) (begun : Written)
    (page : HtmlWriter → Run) : Run :=
  match Bmd.docToHtml w.order pageOptions root with
  | .ok h => page h
  | .err e => { Run.printed 1 (printDocumentError file source e true) with written := begun }
  | .throws => { Run.internal with written := begun }
  | .ub => { Run.ub with written := begun }

/-- `to_html`, main.cpp:68-112. -/
def toHtml (w : World) (file : List Char) (out : Option (List Char)) : Run :=
  finish do
    let source ← loadFile w file
    if endsWith ".bms".toList file then
      return .exit 0 [lit "Converting BMS files to HTML is not supported yet\n"]
    else if endsWith ".bmd".toList file then do
      let root ← parseDocument w source file
      match out with
      | none => return convert w root source file .untouched fun h => .exit 0 (coloredPage h.out)
      | some o =>
        if !w.writable o then return .exit 1 (cannotOpen o)
        else return convert w root source file .begun fun h => ⟨[], .whole (bytes (simplePage h.out)), .exit 0⟩
    else return unknownSuffix file

/-- `check_semantics`, main.cpp:114-129. -/
def verify (w : World) (file : List Char) : Run :=
  if !endsWith ".bms".toList file then .exit 1 [ansiRed, lit "Error: file must have '.bms' suffix\n"]
  else finish do
    let source ← loadFile w file
    let ts ← tokenizeFile source file
    let p ← parseTokenized ts source file
    let _ ← analyzeParsed w p.1 p.2 source file
    return .exit 0 [ansiGreen, lit "All checks passed.\n", ansiReset]

/-- The end of `generate`, main.cpp:154-161. -/
def showCode : Outcome GenC.GenError (List Char) → Run
  | .ok code => .exit 0 [.text code]
  | .err _ => .exit 1 [ansiRed, lit "Error: failed to generate code.\n"]
  | .throws => .internal
  | .ub => .ub

/-- `generate`, main.cpp:131-162; the options are the default ones, src/bmd/codegen/codegen.hpp:27-48. -/
def generate (w : World) (file language : List Char) : Run :=
  if !endsWith ".bms".toList file then .exit 1 [ansiRed, lit "Error: file must have '.bms' suffix.\n"]
  else
    match Gen.languageByName language with
    | none => .exit 1 [ansiRed, lit "Error: unrecognized code language: '", .text language, lit "'\n"]
    | some l => finish do
      let source ← loadFile w file
      let ts ← tokenizeFile source file
      let p ← parseTokenized ts source file
      let ds ← analyzeParsed w p.1 p.2 source file
      return showCode (Gen.generate {} l ds)

/-- `command_helps`, main.cpp:170-179. -/
def commandHelps : List (String × String × String) :=
  [("dump_tokens", "FILE", "Prints BMS/BMD tokens."),
   ("dump_ast", "FILE", "Prints the BMS/BMD abstract syntax tree."),
   ("verify", "FILE", "Performs semantic analysis on the BMS file, i.e. checks for correctness."),
   ("generate", "FILE LANGUAGE", "Converts the given BMS file to code in the specified language."),
   ("html", "FILE [OUTPUT_FILE]", "Converts the BMD file to an HTML file, or prints to stdout.")]

/-- `print_help`, main.cpp:181-191. -/
def help (program : List Char) : Out :=
  [ansiBlack, lit "Usage: ", ansiReset, .text program, ansiYellow, lit " COMMAND ", ansiHGreen, lit "...\n"] ++
  commandHelps.flatMap fun h =>
    [lit "    ", ansiYellow, lit h.1, lit " ", ansiHGreen, lit h.2.1, lit "\n", lit "      ", ansiReset,
      lit h.2.2, lit "\n"]

/-- The choice of the command in `main`, main.cpp:203-220. -/
def command (w : World) (program name file : List Char) (rest : List (List Char)) : Run :=
  if name = "dump_tokens".toList then dumpTokens w file
  else if name = "dump_ast".toList then dumpAst w file
  else if name = "verify".toList then verify w file
  else if name = "generate".toList then
    match rest with
    | [] => .exit 1 (help program)
    | language :: _ => generate w file language
  else if name = "html".toList then toHtml w file rest.head?
  else .exit 1 [lit "Unknown command '", .text name, lit "'\n"]

/-- `main`, main.cpp:193-236; the arguments begin with the name of the program. -/
def main (w : World) : List (List Char) → Run
  | [] => .exit 1 (help "bitmanip".toList)
  | [program] => .exit 1 (help program)
  | [program, _] => .exit 1 (help program)
  | program :: name :: file :: rest => command w program name file rest

end Cli
end Bms
