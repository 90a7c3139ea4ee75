import Verif.Model.Text
import Verif.Model.Tokenize

/-!
Model of the BMD document parser, src/bmd/parsing/parse.cpp, with the directive tables of
src/bmd/enums.cpp and src/bmd/directive_type.hpp.

`m_source` and `m_pos` of `Parser` are represented by the part of the text that is not yet read and
the position of its first character. Where the code truncates `m_source` to parse the inside of a
block (l. 667-700), the unread part is cut in the same way. Node addresses and the memory resource
are left out: a node pointer is the node itself, and a null pointer is `none`.
-/

namespace Bms.Bmd

/-- `Directive_Type`, src/bmd/directive_type.hpp:12-44 (`meta` is a word of Lean). -/
inductive DirType where
  | bold | line_break | deleted | heading1 | heading2 | heading3 | heading4 | heading5 | heading6
  | horizontal_rule | italic | keyboard | ordered_list | quoted | strikethrough | subscript
  | superscript | teletype | underlined | unordered_list
  | code | code_block | instruction | item | note | meta_ | title | bms_function | c_equivalent
deriving DecidableEq, Repr

/-- `Directive_Content_Type`, src/bmd/directive_type.hpp:49-68. -/
inductive ContentType where
  | nothing | text_span | span | block | meta_ | list | raw
deriving DecidableEq, Repr

/-- `Directive_Environment`, src/bmd/directive_type.hpp:71-82. -/
inductive Environment where
  | paragraph | content | meta_ | list
deriving DecidableEq, Repr

/-- `directive_content_allows`, src/bmd/enums.cpp:9-25. -/
def contentAllows (content : ContentType) (env : Environment) : Bool :=
  match content with
  | .nothing => false
  | .text_span => false
  | .span => env = .paragraph
  | .block => env = .paragraph || env = .content
  | .meta_ => env = .meta_
  | .list => env = .list
  | .raw => true

/-- `directive_content_allows_directives`, src/bmd/directive_type.hpp:110-114. -/
def contentAllowsDirectives (t : ContentType) : Bool := t ≠ .nothing && t ≠ .text_span

/-- `directive_content_allows_only_directives`, src/bmd/directive_type.hpp:116-119. -/
def contentAllowsOnlyDirectives (t : ContentType) : Bool := t = .meta_ || t = .list

/-- `directive_type_content_type`, src/bmd/enums.cpp:67-109. -/
def contentTypeOf : DirType → ContentType
  | .line_break | .horizontal_rule => .nothing
  | .instruction | .bms_function | .c_equivalent | .title => .text_span
  | .bold | .code | .deleted | .heading1 | .heading2 | .heading3 | .heading4 | .heading5
  | .heading6 | .italic | .item | .keyboard | .quoted | .strikethrough | .subscript
  | .superscript | .teletype | .underlined => .span
  | .code_block => .raw
  | .note => .block
  | .ordered_list | .unordered_list => .list
  | .meta_ => .meta_

/-- `directive_type_environment`, src/bmd/enums.cpp:111-149. -/
def environmentOf : DirType → Environment
  | .bold | .line_break | .deleted | .instruction | .italic | .keyboard | .quoted
  | .strikethrough | .subscript | .superscript | .teletype | .underlined | .code => .paragraph
  | .heading1 | .heading2 | .heading3 | .heading4 | .heading5 | .heading6 | .code_block
  | .ordered_list | .meta_ | .note | .unordered_list | .horizontal_rule => .content
  | .title | .bms_function | .c_equivalent => .meta_
  | .item => .list

/-- The table in `directive_type_by_id`, src/bmd/enums.cpp:155-188. -/
def directiveTable : List (String × DirType) :=
  [("b", .bold), ("bmsfun", .bms_function), ("br", .line_break), ("c", .code),
   ("cequiv", .c_equivalent), ("codeblock", .code_block), ("del", .deleted), ("h1", .heading1),
   ("h2", .heading2), ("h3", .heading3), ("h4", .heading4), ("h5", .heading5), ("h6", .heading6),
   ("hr", .horizontal_rule), ("i", .italic), ("instruction", .instruction), ("item", .item),
   ("kbd", .keyboard), ("meta", .meta_), ("note", .note), ("ol", .ordered_list), ("q", .quoted),
   ("s", .strikethrough), ("sub", .subscript), ("sup", .superscript), ("title", .title),
   ("tt", .teletype), ("u", .underlined), ("ul", .unordered_list)]

/-- `operator<` on `std::string_view`: lexicographic by character. -/
def viewLess : List Char → List Char → Bool
  | _, [] => false
  | [], _ :: _ => true
  | a :: as, b :: bs => if a.toNat < b.toNat then true
    else if b.toNat < a.toNat then false else viewLess as bs

/-- `std::ranges::lower_bound(lookup, directive_id, {}, &Pair::id)`: the first entry whose id is
not less than the one looked up; `none` is the end iterator. The table is sorted (static assertion,
src/bmd/enums.cpp:190), so the binary search finds the first such entry. -/
def lowerBound (id : List Char) : List (String × DirType) → Option (String × DirType)
  | [] => none
  | e :: es => if viewLess e.1.toList id then lowerBound id es else some e

/-- Result of `directive_type_by_id`, src/bmd/enums.cpp:151-197: `it->id` is read without asking
whether `it` is the end iterator, which is undefined behavior. -/
inductive ById where
  | found (t : DirType) | missing | ub
deriving DecidableEq, Repr

/-- `directive_type_by_id`, src/bmd/enums.cpp:151-197. -/
def directiveTypeById (id : List Char) : ById :=
  match lowerBound id directiveTable with
  | none => .ub
  | some e => if e.1.toList ≠ id then .missing else .found e.2

/-- `Parse_Error_Code`, src/bmd/parsing/parse.hpp:18-33. -/
inductive Code where
  | unexpected_character | unterminated_comment | invalid_integer_literal | unexpected_eof
  | duplicate_argument | integer_suffix | invalid_directive | directive_must_be_empty
  | paragraph_break_in_span | directive_in_text_span | text_in_directive_list
  | directive_not_allowed
deriving DecidableEq, Repr

/-- `Grammar_Rule`, src/bmd/parsing/grammar.hpp:15-33. -/
inductive Rule where
  | document | content | paragraph | paragraph_break | text | directive | arguments | block
  | raw_content | argument | value | binary_literal | octal_literal | decimal_literal
  | hexadecimal_literal | identifier | blank
deriving DecidableEq, Repr

/-- `grammar_rule_of`, src/bmd/parsing/parse.cpp:73-83. -/
def ruleOf : LiteralType → Rule
  | .binary => .binary_literal
  | .octal => .octal_literal
  | .decimal => .decimal_literal
  | .hexadecimal => .hexadecimal_literal

/-- The state of `Parser`, parse.cpp:90-97: `m_pos` and the text from there to the end of
`m_source`. -/
structure St where
  pos : Position
  rest : List Char
deriving DecidableEq, Repr

/-- How a member function of the parser ends. `diverge` stands for a run that has not ended within
the given number of steps. -/
inductive Res (α : Type) where
  | ok (a : α) (s : St)
  | err (code : Code) (rule : Rule) (pos : Position)
  | throws
  | ub
  | diverge
deriving Repr

/-- A member function of the parser. -/
def PM (α : Type) := St → Res α

namespace PM

def pure (a : α) : PM α := fun s => .ok a s

def bind (x : PM α) (f : α → PM β) : PM β := fun s =>
  match x s with
  | .ok a s' => f a s'
  | .err c r p => .err c r p
  | .throws => .throws
  | .ub => .ub
  | .diverge => .diverge

instance : Monad PM where
  pure := PM.pure
  bind := PM.bind

/-- Returning a `Rule_Error`; the position of the error is `m_pos` at that time (parse.cpp:126). -/
def fail (c : Code) (r : Rule) : PM α := fun s => .err c r s.pos

/-- A failed assertion throws. -/
def require (b : Bool) : PM Unit := fun s => if b then .ok () s else .throws

def get : PM St := fun s => .ok s s

def set (s : St) : PM Unit := fun _ => .ok () s

def outOfSteps : PM α := fun _ => .diverge

end PM

/-- `ast::Value`, src/bmd/parsing/ast.hpp:29-63. -/
inductive Value where
  | ident (pos : Position) (name : List Char)
  | number (pos : Position) (length : Nat) (value : Int) (type : LiteralType)
deriving DecidableEq, Repr

/-- `ast::Some_Node`: `List`, `Directive`, `Text`, src/bmd/parsing/ast.hpp:84-197. The arguments, an
unordered map, are a list in the order of insertion. -/
inductive Node where
  | list (pos : Position) (length : Nat) (children : List Node)
  | directive (pos : Position) (length : Nat) (type : DirType) (ident : List Char)
      (args : List (List Char × Value)) (block : Option Node)
  | text (pos : Position) (length : Nat) (chars : List Char)
deriving Repr

/-- `is_escapeable`, parse.cpp:68-71. -/
def isEscapeable (c : Char) : Bool := c = '\\' || c = '}' || c = '{'

/-- Advancing past the next character; `advance_position_based_on`, parse.cpp:141-154. -/
def St.next (s : St) (c : Char) (cs : List Char) : St := ⟨s.pos.advance c, cs⟩

/-- `m_pos = m_pos.to_right(n)`. -/
def St.skip (s : St) (n : Nat) : St := ⟨s.pos.toRight n, s.rest.drop n⟩

/-- `eof`, parse.cpp:183-186. -/
def St.eof (s : St) : Bool := s.rest.isEmpty

/-- `peek(char)`, parse.cpp:198-201. -/
def St.peek (s : St) (c : Char) : Bool := s.rest.head? = some c

/-- `peek(is_space)`, parse.cpp:223-226. -/
def St.peekSpace (s : St) : Bool :=
  match s.rest with
  | [] => false
  | c :: _ => isSpace c

/-- `peek_possible_directive`, parse.cpp:210-216. -/
def possibleDirective : List Char → Bool
  | [] => false
  | [c] => c = '\\'
  | c :: d :: _ => c = '\\' && !isEscapeable d

/-- `expect(char)`, parse.cpp:228-238, with the rule that the callers give to its error. -/
def expect (c : Char) (rule : Rule) : PM Unit := fun s =>
  match s.rest with
  | [] => .err .unexpected_eof rule s.pos
  | d :: ds => if d ≠ c then .err .unexpected_character rule s.pos else .ok () (s.next d ds)

/-! ### Blanks -/

mutual
/-- The loop of `match_blank`, parse.cpp:806-846, outside of comments. `expect("//")` advances by
two characters through `advance_position_by` (l. 133-139), which asserts that the text does not end
there. The only error is `unterminated_comment`; the callers add `rule`. -/
def blankLoop (rule : Rule) (newlines : Nat) (broken : Bool) : List Char → Position → Res Bool
  | [], p => .ok broken ⟨p, []⟩
  | [c], p =>
    if isSpace c then
      .ok (if c = '\n' then broken || decide (newlines + 1 > 1) else broken) ⟨p.advance c, []⟩
    else .ok broken ⟨p, [c]⟩
  | c :: d :: ds, p =>
    if c = '/' && d = '/' then
      if ds.isEmpty then .throws
      else blankLine rule broken ds ((p.advance c).advance d)
    else if c = '/' && d = '*' then
      if ds.isEmpty then .throws
      else blankComment rule broken ds ((p.advance c).advance d)
    else if !isSpace c then .ok broken ⟨p, c :: d :: ds⟩
    else if c = '\n' then
      blankLoop rule (newlines + 1) (broken || decide (newlines + 1 > 1)) (d :: ds) (p.advance c)
    else blankLoop rule newlines broken (d :: ds) (p.advance c)
/-- The inside of a line comment, parse.cpp:813-823. -/
def blankLine (rule : Rule) (broken : Bool) : List Char → Position → Res Bool
  | [], p => .err .unterminated_comment rule p
  | c :: cs, p =>
    if c = '\n' then blankLoop rule 1 broken cs (p.advance c)
    else blankLine rule broken cs (p.advance c)
/-- The inside of a block comment, parse.cpp:827-837. -/
def blankComment (rule : Rule) (broken : Bool) : List Char → Position → Res Bool
  | [], p => .err .unterminated_comment rule p
  | [c], p => .err .unterminated_comment rule (p.advance c)
  | c :: d :: ds, p =>
    if c = '*' && d = '/' then blankLoop rule 0 broken ds ((p.advance c).advance d)
    else blankComment rule broken (d :: ds) (p.advance c)
end

/-- `match_blank()`, parse.cpp:798-849; the result is `is_paragraph_break`. -/
def matchBlank (rule : Rule) : PM Bool := fun s => blankLoop rule 0 false s.rest s.pos

/-- `match_blank(Grammar_Rule)`, parse.cpp:781-796, for `Grammar_Rule::blank`, the only rule it is
called with. The result is the length. -/
def matchBlankRule : PM Nat := do
  let s ← PM.get
  let broken ← matchBlank .blank
  if broken then
    PM.set s
    return 0
  else
    let s' ← PM.get
    return s'.pos.start - s.pos.start

/-! ### Identifiers and values -/

/-- `match_identifier`, parse.cpp:897-909. -/
def matchIdent : PM (Position × List Char) := do
  let s ← PM.get
  if s.eof then PM.fail .unexpected_eof .identifier
  else
    let length := matchIdentifier s.rest
    if length = 0 then PM.fail .unexpected_character .identifier
    else
      PM.set (s.skip length)
      return (s.pos, s.rest.take length)

/-- `Int64(*value)`: conversion to 64 bits, modulo 2^64. -/
def toInt64 (v : Int) : Int := (BitVec.ofInt 64 v).toInt

/-- `match_literal`, parse.cpp:870-895 (the part up to the suffix check is l. 858-885). -/
def matchLiteral : PM Value := do
  let s ← PM.get
  if s.eof then PM.fail .unexpected_eof .decimal_literal
  else match matchIntegerLiteral s.rest with
    | .no_digits => PM.fail .invalid_integer_literal .decimal_literal
    | .no_digits_following_prefix type => do
      PM.set (s.skip 2)
      PM.fail .invalid_integer_literal (ruleOf type)
    | .ok length type =>
      if (s.rest.drop length).head?.any (identifierCharacters.contains ·) then do
        PM.set (s.skip length)
        PM.fail .integer_suffix (ruleOf type)
      else match parseIntegerLiteral (s.rest.take length) with
        | none => PM.fail .invalid_integer_literal .decimal_literal
        | some v => do
          PM.set (s.skip length)
          return .number s.pos length (toInt64 v) type

/-- `match_value`, parse.cpp:851-868. -/
def matchValue : PM Value := do
  let s ← PM.get
  if s.rest.head?.any isDecimalDigit then matchLiteral
  else
    let (p, name) ← matchIdent
    return .ident p name

/-! ### Arguments -/

/-- The loop of `match_arguments`, parse.cpp:465-502. -/
def argumentsLoop : Nat → List (List Char × Value) → PM (List (List Char × Value))
  | 0, _ => PM.outOfSteps
  | n + 1, args => do
    let _ ← matchBlankRule
    let restore ← PM.get
    let (_, name) ← matchIdent
    let _ ← matchBlankRule
    expect '=' .argument
    let _ ← matchBlankRule
    let value ← matchValue
    if args.any (fun a => a.1 = name) then
      PM.set restore
      PM.fail .duplicate_argument .argument
    else
      let args := args ++ [(name, value)]
      let _ ← matchBlankRule
      let s ← PM.get
      if s.eof then PM.fail .unexpected_eof .argument
      else if s.peek ',' then
        expect ',' .argument
        argumentsLoop n args
      else return args

/-- `match_arguments`, parse.cpp:458-507. -/
def matchArguments (n : Nat) : PM (List (List Char × Value)) := do
  expect '[' .arguments
  let args ← argumentsLoop n []
  expect ']' .arguments
  return args

/-! ### Text -/

/-- The loop of `match_text_impl`, parse.cpp:527-554: `final` is the state after the last character
that belongs to the text, `newline` is `paragraph_break_possible`. -/
def textLoop (newline : Bool) (final : St) : List Char → Position → St
  | [], _ => final
  | c :: cs, p =>
    if isSpace c then
      if c = '\n' then
        if newline then final else textLoop true final cs (p.advance c)
      else textLoop newline final cs (p.advance c)
    else if c = '/' && (cs.head? = some '/' || cs.head? = some '*') then final
    else if c = '\\' then
      match cs with
      | [] => final
      | d :: ds =>
        if isEscapeable d then
          textLoop false ⟨(p.advance c).advance d, ds⟩ ds ((p.advance c).advance d)
        else final
    else textLoop false ⟨p.advance c, cs⟩ cs (p.advance c)

/-- `match_text`, parse.cpp:509-519, with `match_text_impl`, l. 521-558. -/
def matchText : PM (Option Node) := do
  let s ← PM.get
  let final := textLoop false s s.rest s.pos
  let text := s.rest.take (final.pos.start - s.pos.start)
  PM.set final
  if text.isEmpty then return none
  else
    PM.require (!text.head?.any isSpace)
    PM.require (!text.getLast?.any isSpace)
    return some (.text s.pos text.length text)

/-! ### Raw blocks -/

mutual
/-- The loop of `match_raw_block_impl`, parse.cpp:725-774, outside of comments, at brace depth
`level`. The state in the result is the one after the closing brace. -/
def rawLoop (level : Nat) : List Char → Position → Res Unit
  | [], p => .err .unexpected_eof .raw_content p
  | [c], p =>
    if c = '}' then
      if level = 0 then .ok () ⟨p.advance c, []⟩
      else .err .unexpected_eof .raw_content (p.advance c)
    else .err .unexpected_eof .raw_content (p.advance c)
  | c :: d :: ds, p =>
    if c = '}' then
      if level = 0 then .ok () ⟨p.advance c, d :: ds⟩
      else rawLoop (level - 1) (d :: ds) (p.advance c)
    else if c = '\\' && isEscapeable d then rawLoop level ds ((p.advance c).advance d)
    else if c = '{' then rawLoop (level + 1) (d :: ds) (p.advance c)
    else if c = '/' && d = '/' then rawLine level ds ((p.advance c).advance d)
    else if c = '/' && d = '*' then rawComment level ds ((p.advance c).advance d)
    else rawLoop level (d :: ds) (p.advance c)
/-- The inside of a line comment, parse.cpp:747-756. -/
def rawLine (level : Nat) : List Char → Position → Res Unit
  | [], p => .err .unterminated_comment .raw_content p
  | c :: cs, p =>
    if c = '\n' then rawLoop level cs (p.advance c) else rawLine level cs (p.advance c)
/-- The inside of a block comment, parse.cpp:762-771. -/
def rawComment (level : Nat) : List Char → Position → Res Unit
  | [], p => .err .unterminated_comment .raw_content p
  | [c], p => .err .unterminated_comment .raw_content (p.advance c)
  | c :: d :: ds, p =>
    if c = '*' && d = '/' then rawLoop level ds ((p.advance c).advance d)
    else rawComment level (d :: ds) (p.advance c)
end

/-- That loop, from the current state. -/
def rawContent : PM Unit := fun s => rawLoop 0 s.rest s.pos

/-- `ast::Raw`: the position and the text of a raw block without its braces. -/
structure Raw where
  pos : Position
  chars : List Char
deriving DecidableEq, Repr

/-- `match_raw_block_impl`, parse.cpp:716-779. The constructor of `ast::Raw` (l. 56-61) asserts that
the text is not empty. -/
def matchRawBlockImpl : PM Raw := do
  expect '{' .block
  let s ← PM.get
  rawContent
  let s' ← PM.get
  let chars := s.rest.take (s'.pos.start - s.pos.start - 1)
  PM.require (!chars.isEmpty)
  return ⟨s.pos, chars⟩

/-- `match_raw_block`, parse.cpp:702-710. -/
def matchRawBlock : PM (Option Node) := do
  let raw ← matchRawBlockImpl
  return some (.text raw.pos raw.chars.length raw.chars)

/-- `match_empty_block`, parse.cpp:581-590. -/
def matchEmptyBlock : PM (Option Node) := do
  let _ ← matchBlank .block
  let s ← PM.get
  if s.peek '}' then
    expect '}' .block
    return none
  else PM.fail .directive_must_be_empty .block

/-- `match_inside_block`, parse.cpp:667-700. -/
def matchInsideBlock (inner : PM (Option Node)) : PM (Option Node) := do
  let s ← PM.get
  let raw ← matchRawBlockImpl
  PM.set ⟨s.pos.toRight 1, raw.chars⟩
  let result ← inner
  let s' ← PM.get
  PM.require s'.eof
  -- the restored source at `m_pos`, which is the end of the block
  let outer := s.rest.drop (s'.pos.start - s.pos.start)
  PM.require (outer.head? = some '}')
  PM.set ⟨s'.pos.toRight 1, outer.drop 1⟩
  return result

/-! ### Directives, paragraphs, content -/

/-- `break_paragraph`, parse.cpp:312-325: the elements with the pending paragraph appended, and the
position where the next paragraph starts. -/
def breakParagraph (elements paragraph : List Node) (start now : Position) :
    List Node × Position :=
  if paragraph.isEmpty then (elements, start)
  else (elements ++ [.list start (now.start - start.start) paragraph], now)

mutual
/-- `match_content`, parse.cpp:300-377. -/
def matchContent : Nat → PM (Option Node)
  | 0 => PM.outOfSteps
  | n + 1 => do
    let s ← PM.get
    contentLoop n s.pos [] [] s.pos
/-- The loop of `match_content`, parse.cpp:327-372: `elements`, `paragraph_elements` and
`pos_before_paragraph`. -/
def contentLoop : Nat → Position → List Node → List Node → Position → PM (Option Node)
  | 0, _, _, _, _ => PM.outOfSteps
  | n + 1, initial, elements, paragraph, start => do
    let s ← PM.get
    if s.eof then
      let (elements, _) := breakParagraph elements paragraph start s.pos
      return some (.list initial (s.pos.start - initial.start) elements)
    else
      PM.require (!s.peekSpace)
      if possibleDirective s.rest then
        let (type, node) ← matchDirective n .block
        let here ← PM.get
        match environmentOf type with
        | .list | .meta_ => PM.fail .directive_not_allowed .content
        | .content =>
          let (elements, start) := breakParagraph elements paragraph start here.pos
          contentNext n initial (elements ++ [node]) [] start
        | .paragraph => contentNext n initial elements (paragraph ++ [node]) start
      else
        let text ← matchText
        match text with
        | none => PM.require false *> return none
        | some text => contentNext n initial elements (paragraph ++ [text]) start
/-- The end of an iteration of that loop, parse.cpp:362-371. -/
def contentNext : Nat → Position → List Node → List Node → Position → PM (Option Node)
  | 0, _, _, _, _ => PM.outOfSteps
  | n + 1, initial, elements, paragraph, start => do
    let broken ← matchBlank .content
    let here ← PM.get
    if broken then
      let (elements', start') := breakParagraph elements paragraph start here.pos
      contentLoop n initial elements' [] start'
    else contentLoop n initial elements paragraph start
/-- `match_paragraph`, parse.cpp:379-410. -/
def matchParagraph : Nat → PM (Option Node)
  | 0 => PM.outOfSteps
  | n + 1 => do
    let s ← PM.get
    paragraphLoop n s.pos []
/-- The loop of `match_paragraph`, parse.cpp:383-407. -/
def paragraphLoop : Nat → Position → List Node → PM (Option Node)
  | 0, _, _ => PM.outOfSteps
  | n + 1, initial, elements => do
    let s ← PM.get
    let done : PM (Option Node) := do
      let s ← PM.get
      return some (.list initial (s.pos.start - initial.start) elements)
    if s.eof then done
    else if s.peekSpace then
      let length ← matchBlankRule
      if length = 0 then done else paragraphElement n initial elements
    else paragraphElement n initial elements
/-- The rest of an iteration of that loop, parse.cpp:395-406. -/
def paragraphElement : Nat → Position → List Node → PM (Option Node)
  | 0, _, _ => PM.outOfSteps
  | n + 1, initial, elements => do
    let text ← matchText
    match text with
    | some text => paragraphLoop n initial (elements ++ [text])
    | none =>
      let s ← PM.get
      if possibleDirective s.rest then
        let (_, node) ← matchDirective n .span
        paragraphLoop n initial (elements ++ [node])
      else paragraphLoop n initial elements
/-- `match_directive`, parse.cpp:412-456. The type of the directive is returned beside the node. -/
def matchDirective : Nat → ContentType → PM (DirType × Node)
  | 0, _ => PM.outOfSteps
  | n + 1, context => do
    PM.require (contentAllowsDirectives context)
    let s ← PM.get
    expect '\\' .directive
    let (_, name) ← matchIdent
    match directiveTypeById name with
    | .ub => fun _ => .ub
    | .missing =>
      -- m_pos.to_left(identifier length): its assertions hold, as `matchIdent` moved as far right
      PM.set (⟨s.pos.advance '\\', s.rest.drop 1⟩)
      PM.fail .invalid_directive .directive
    | .found type =>
      if !contentAllows context (environmentOf type) then
        PM.fail .directive_not_allowed .directive
      else
        let s1 ← PM.get
        let args ← if s1.peek '[' then matchArguments n else Pure.pure []
        let s2 ← PM.get
        let block ← if s2.peek '{' then matchDirectiveContent n (contentTypeOf type)
          else Pure.pure none
        let s3 ← PM.get
        return (type, .directive s.pos (s3.pos.start - s.pos.start) type name args block)
/-- `match_directive_content`, parse.cpp:560-579. -/
def matchDirectiveContent : Nat → ContentType → PM (Option Node)
  | 0, _ => PM.outOfSteps
  | n + 1, type =>
    match type with
    | .nothing => matchEmptyBlock
    | .text_span => matchInsideBlock (spanInside n false)
    | .span => matchInsideBlock (spanInside n true)
    | .block => matchInsideBlock (blockInside n)
    | .meta_ => matchInsideBlock (directivesInside n .meta_)
    | .list => matchInsideBlock (directivesInside n .list)
    | .raw => matchRawBlock
/-- `match_span_inside_raw_block`, parse.cpp:592-618. -/
def spanInside : Nat → Bool → PM (Option Node)
  | 0, _ => PM.outOfSteps
  | n + 1, directivesAllowed => do
    let broken ← matchBlank .block
    if broken then PM.fail .paragraph_break_in_span .block
    else
      let result ← if directivesAllowed then matchParagraph n else matchText
      let s ← PM.get
      if s.peekSpace then PM.fail .paragraph_break_in_span .block
      else if !directivesAllowed && possibleDirective s.rest then
        PM.fail .directive_in_text_span .block
      else return result
/-- `match_block_inside_raw_block`, parse.cpp:620-628. -/
def blockInside : Nat → PM (Option Node)
  | 0 => PM.outOfSteps
  | n + 1 => do
    let _ ← matchBlank .block
    matchContent n
/-- `match_directives_inside_raw_block`, parse.cpp:630-654. -/
def directivesInside : Nat → ContentType → PM (Option Node)
  | 0, _ => PM.outOfSteps
  | n + 1, type => do
    let s ← PM.get
    let _ ← matchBlank .block
    directivesLoop n type s.pos []
/-- The loop of `match_directives_inside_raw_block`, parse.cpp:641-652. -/
def directivesLoop : Nat → ContentType → Position → List Node → PM (Option Node)
  | 0, _, _, _ => PM.outOfSteps
  | n + 1, type, initial, nodes => do
    let s ← PM.get
    if s.eof then return some (.list initial (s.pos.start - initial.start) nodes)
    else if !possibleDirective s.rest then PM.fail .text_in_directive_list .block
    else
      let (_, node) ← matchDirective n type
      let _ ← matchBlank .block
      directivesLoop n type initial (nodes ++ [node])
end

/-- `match_document`, parse.cpp:286-298. -/
def matchDocument (n : Nat) : PM (Option Node) := do
  let _ ← matchBlank .blank
  let s ← PM.get
  if s.eof then return none else matchContent n

/-- `parse`, parse.cpp:122-129 and 914-918, within `n` steps. -/
def parse (n : Nat) (source : List Char) : Res (Option Node) :=
  matchDocument n ⟨⟨0, 0, 0⟩, source⟩

end Bms.Bmd
