import Verif.Model.Cli
import Verif.Spec.Diagnostics

/-!
# Specification: the command line

What a run of the command line program is expected to show, and the programs that are accepted.
-/

namespace Bms.Spec

open Diag

/-- The commands, with what follows them and what they do. -/
def commands : List (String × String × String) :=
  [("dump_tokens", "FILE", "Prints BMS/BMD tokens."),
   ("dump_ast", "FILE", "Prints the BMS/BMD abstract syntax tree."),
   ("verify", "FILE", "Performs semantic analysis on the BMS file, i.e. checks for correctness."),
   ("generate", "FILE LANGUAGE", "Converts the given BMS file to code in the specified language."),
   ("html", "FILE [OUTPUT_FILE]", "Converts the BMD file to an HTML file, or prints to stdout.")]

/-- The lines for a command in the help. -/
def commandLines (c : String × String × String) : List Char :=
  "    ".toList ++ c.1.toList ++ " ".toList ++ c.2.1.toList ++ ("\n".toList ++ "      ".toList) ++ c.2.2.toList ++
    "\n".toList

/-- The help that is read on the terminal. -/
def helpText (program : List Char) : List Char :=
  "Usage: ".toList ++ program ++ (" COMMAND ".toList ++ "...\n".toList) ++ commands.flatMap commandLines

/-- The name of a file ends like this. -/
def Suffix (suffix : String) (file : List Char) : Prop := ∃ stem, file = stem ++ suffix.toList

/-- The text of a file is a program that is accepted: it can be split into tokens, these make a tree, the
annotations in it are allowed, and analysis gives `s`. -/
structure Verified (n : Nat) (src : List Char) (ds : List ADecl) (s : ASt) : Prop where
  accepted : compile n src = .analyzed ds (.ok () s)
  annotations : ∀ ts nodes root, tokenize src = some (ts, .ok ()) → Parse.parse src ts = .ok nodes root →
    ∃ rs, Annot.resolve nodes root = .ok rs

/-- The steps are enough to read a text. -/
def Enough (n : Nat) (src : List Char) : Prop := src.length < n * 4096

/-- Command lines with which a file is read. -/
inductive ReadsFile : List (List Char) → List Char → Prop where
  | tokens (program : List Char) {file : List Char} (rest : List (List Char)) : Suffix ".bms" file →
    ReadsFile (program :: "dump_tokens".toList :: file :: rest) file
  | tree (program file : List Char) (rest : List (List Char)) :
    ReadsFile (program :: "dump_ast".toList :: file :: rest) file
  | check (program : List Char) {file : List Char} (rest : List (List Char)) : Suffix ".bms" file →
    ReadsFile (program :: "verify".toList :: file :: rest) file
  | code (program : List Char) {file language : List Char} {l : Gen.Lang} (rest : List (List Char)) :
    Suffix ".bms" file → Gen.languageByName language = some l →
    ReadsFile (program :: "generate".toList :: file :: language :: rest) file
  | page (program file : List Char) (rest : List (List Char)) :
    ReadsFile (program :: "html".toList :: file :: rest) file

/-- How far a program in a file is looked at: it is split into tokens, parsed, or checked. -/
inductive Depth where
  | tokens | tree | checks

/-- Command lines with which a program is looked at, and how far. -/
inductive LooksAt : Depth → List (List Char) → List Char → Prop where
  | tokens (program file : List Char) (rest : List (List Char)) :
    LooksAt .tokens (program :: "dump_tokens".toList :: file :: rest) file
  | tree (program file : List Char) (rest : List (List Char)) :
    LooksAt .tree (program :: "dump_ast".toList :: file :: rest) file
  | check (program file : List Char) (rest : List (List Char)) :
    LooksAt .checks (program :: "verify".toList :: file :: rest) file
  | code (program file : List Char) {language : List Char} {l : Gen.Lang} (rest : List (List Char)) :
    Gen.languageByName language = some l →
    LooksAt .checks (program :: "generate".toList :: file :: language :: rest) file

/-- Command lines with which a document is looked at. -/
inductive LooksAtDocument : List (List Char) → List Char → Prop where
  | tree (program file : List Char) (rest : List (List Char)) :
    LooksAtDocument (program :: "dump_ast".toList :: file :: rest) file
  | page (program file : List Char) (rest : List (List Char)) :
    LooksAtDocument (program :: "html".toList :: file :: rest) file

end Bms.Spec
