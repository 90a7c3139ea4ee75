import Verif.Model.Diagnostics
import Verif.Spec.Tokens

/-!
# Specification: reports of errors

What a person reads on the terminal when an error is reported: where the error is, the line of the source
that contains it, and a mark below the place of the error. Only the pieces of output are shared with the
model.
-/

namespace Bms.Diag

/-- What can be read: everything but the escape sequences. -/
def seen : Out → List Char
  | [] => []
  | .ansi _ :: out => seen out
  | .text s :: out => s ++ seen out

/-- There are no escape sequences. -/
def Plain (out : Out) : Prop := ∀ p ∈ out, ∃ s, p = .text s

/-- The decimal digits of a number. -/
def decimal (n : Nat) : List Char := Nat.toDigits 10 n

/-- The source consists of `before`, of `line`, which is a whole line, and of `after`; and the character
with the given index is behind `offset` characters of that line. The line feed at the end belongs to the
line. -/
structure LineAt (source before line after : List Char) (index offset : Nat) : Prop where
  split : source = before ++ line ++ after
  first : before = [] ∨ before.getLast? = some '\n'
  last : after = [] ∨ after.head? = some '\n'
  single : '\n' ∉ line
  index : index = before.length + offset
  offset : offset ≤ line.length

/-- A place: the file, the number of the line and the number of the column. -/
def place (file : List Char) (line column : Nat) : List Char :=
  file ++ ':' :: decimal line ++ ':' :: decimal column

/-- A line that is quoted with its number, and a mark below it behind some spaces. -/
def quotation (number : Nat) (line : List Char) (indent : Nat) : List Char :=
  List.replicate (5 - (decimal number).length) ' ' ++ decimal number ++ " | ".toList ++ line ++
    '\n' :: "      | ".toList ++ List.replicate indent ' ' ++ "^\n".toList

/-- A whole report. -/
def report (file : List Char) (number column : Nat) (message line : List Char) (indent : Nat) :
    List Char :=
  place file number column ++ ": error: ".toList ++ message ++ '\n' :: quotation number line indent

/-- Alternatives in English. -/
def alternatives : List (List Char) → List Char
  | [] => "nothing".toList
  | [x] => x
  | xs => "one of: ".toList ++ List.intercalate ", ".toList xs.dropLast ++ ", or ".toList ++
      xs.getLast?.getD []

/-- A report with a note below the message. -/
def reportNote (file : List Char) (number column : Nat) (message note line : List Char)
    (indent : Nat) : List Char :=
  place file number column ++ ": error: ".toList ++ message ++
    '\n' :: place file number column ++ ": note: ".toList ++ note ++
    '\n' :: quotation number line indent

end Bms.Diag
