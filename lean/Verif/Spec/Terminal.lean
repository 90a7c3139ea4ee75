import Verif.Model.CodeString
import Verif.Model.Html

/-!
# What a terminal shows

A terminal gets characters one after the other. `ESC` begins a sequence that ends with `m` and sets the
colour; every other character is shown in the colour that is set.
-/

namespace Bms.Terminal

/-- A colour: the sequence that sets it, without `ESC` and `m`; empty for the colour at the beginning. -/
abbrev Colour := List Char

structure State where
  /-- What is shown, with colours. -/
  shown : List (Char × Colour)
  /-- The colour that is set. -/
  colour : Colour
  /-- The sequence that has begun. -/
  sequence : Option (List Char)
deriving DecidableEq, Repr

/-- Before anything is sent. -/
def fresh : State := ⟨[], [], none⟩

/-- A character is sent. -/
def send (s : State) (c : Char) : State :=
  match s.sequence with
  | none => if c = '\x1B' then { s with sequence := some [] }
      else { s with shown := s.shown ++ [(c, s.colour)] }
  | some p =>
    if c = 'm' then { s with colour := if p = ['[', '0'] then [] else p, sequence := none }
    else { s with sequence := some (p ++ [c]) }

/-- A text is sent. -/
def sendAll (s : State) (text : List Char) : State := text.foldl send s

/-- The colours of code. -/
def codeColour : SpanType → Colour
  | .identifier => "[0;97".toList
  | .type_name => "[0;94".toList
  | .bracket | .punctuation => "[30".toList
  | .number => "[0;96".toList
  | .string => "[0;92".toList
  | .comment | .operation => "[0;90".toList
  | .keyword | .boolean_literal => "[0;95".toList
  | .error => "[0;91".toList

/-- The colours of a page. -/
def htmlColour : HtmlTok → Colour
  | .whitespace | .inner_text => []
  | .preamble | .comment => "[0;90".toList
  | .tag_identifier => "[0;94".toList
  | .tag_bracket | .attribute_equal | .attribute_comma => "[30".toList
  | .attribute_key => "[0;96".toList
  | .attribute_quote | .attribute_value => "[0;92".toList

/-- The colour of a place in code: that of a span which contains it. -/
def colourAt (spans : List CodeSpan) (i : Nat) : Colour :=
  match spans.find? fun s => decide (s.start ≤ i ∧ i < s.start + s.length) with
  | some s => codeColour s.type
  | none => []

/-- Code with its colours. -/
def paint (spans : List CodeSpan) : Nat → List Char → List (Char × Colour)
  | _, [] => []
  | i, c :: cs => (c, colourAt spans i) :: paint spans (i + 1) cs

end Bms.Terminal
