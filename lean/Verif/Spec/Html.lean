import Verif.Spec.Text

/-!
# Specification: HTML text

What well-nested HTML text is, how text is escaped and read back, and how a browser reads the
attributes of a tag.  Nothing here refers to the HTML writer.
-/

namespace Bms.Spec

/-! ## Escaping -/

/-- The text that shows the character `c`. -/
def escapeChar (c : Char) : List Char :=
  if c = '<' then ['&', 'l', 't', ';'] else if c = '>' then ['&', 'g', 't', ';'] else [c]

/-- The text that shows `s`. -/
def escape (s : List Char) : List Char := s.flatMap escapeChar

/-- What a browser shows for a text, as far as the two entities `&lt;` and `&gt;` are concerned. -/
def unescape : List Char → List Char
  | '&' :: 'l' :: 't' :: ';' :: s => '<' :: unescape s
  | '&' :: 'g' :: 't' :: ';' :: s => '>' :: unescape s
  | c :: s => c :: unescape s
  | [] => []

/-- `Wrapped s n t`: `t` shows the text `s`, which has `n` lines; every line may be indented
by additional blanks, all line ends of `s` are kept. -/
inductive Wrapped : List Char → Nat → List Char → Prop
  | nil : Wrapped [] 0 []
  | last {gap line} : (∀ c ∈ gap, c = ' ' ∨ c = '\n') → line ≠ [] → '\n' ∉ line →
      Wrapped line 1 (gap ++ escape line)
  | line {gap line s n t} : (∀ c ∈ gap, c = ' ' ∨ c = '\n') → '\n' ∉ line → Wrapped s n t →
      Wrapped (line ++ '\n' :: s) (n + 1) (gap ++ escape line ++ '\n' :: t)

/-! ## Tags and attributes -/

/-- Characters of tag names and attribute keys. -/
def NameChar (c : Char) : Prop :=
  InRange 'a' c 'z' ∨ InRange 'A' c 'Z' ∨ InRange '0' c '9' ∨ c = '_' ∨ c = '-'

instance (c : Char) : Decidable (NameChar c) := by unfold NameChar; infer_instance

/-- Tag names and attribute keys. -/
def Name : List Char → Prop
  | [] => False
  | c :: cs => ¬ InRange '0' c '9' ∧ ∀ d ∈ c :: cs, NameChar d

/-- The white space characters of HTML. -/
def HtmlSpace (c : Char) : Prop :=
  c = ' ' ∨ c = '\n' ∨ c = '\t' ∨ c = '\r' ∨ c = Char.ofNat 12

instance (c : Char) : Decidable (HtmlSpace c) := by unfold HtmlSpace; infer_instance

/-- `AttrText as t`: the text `t` states the attributes `as` (keys with values, an empty value is
left out).  Values are in double quotes unless they contain no character that is special inside a
tag.  An unquoted value has no `/`, so that it can stand in front of `/>`. -/
inductive AttrText : List (List Char × List Char) → List Char → Prop
  | nil : AttrText [] []
  | bare {k as t} : Name k → AttrText as t → AttrText ((k, []) :: as) (' ' :: (k ++ t))
  | unquoted {k v as t} : Name k → v ≠ [] →
      (∀ c ∈ v, ¬ HtmlSpace c ∧ c ≠ '"' ∧ c ≠ '\'' ∧ c ≠ '`' ∧ c ≠ '=' ∧ c ≠ '<' ∧ c ≠ '>' ∧
        c ≠ '/') →
      AttrText as t → AttrText ((k, v) :: as) (' ' :: (k ++ '=' :: (v ++ t)))
  | quoted {k v as t} : Name k → '"' ∉ v →
      AttrText as t → AttrText ((k, v) :: as) (' ' :: (k ++ '=' :: '"' :: (v ++ '"' :: t)))

/-- Well-nested HTML: text without `<` and `>`, comments, empty tags, and elements whose closing
tag has the name of the opening tag. -/
inductive Content : List Char → Prop
  | nil : Content []
  | char {c} : c ≠ '<' → c ≠ '>' → Content [c]
  | comment {s} : ¬ ['-', '-', '>'] <:+: s →
      Content (['<', '!', '-', '-'] ++ s ++ ['-', '-', '>'])
  | empty {id as t} : Name id → AttrText as t → Content ('<' :: (id ++ t ++ ['/', '>']))
  | element {id as t s} : Name id → AttrText as t → Content s →
      Content ('<' :: (id ++ t ++ '>' :: (s ++ ['<', '/'] ++ id ++ ['>'])))
  | append {a b} : Content a → Content b → Content (a ++ b)

/-! ## How a browser reads the attributes of a tag -/

/-- Where the reader is: in front of an attribute, in or after a key, in front of a value, in
an unquoted, double-quoted or single-quoted value, after a quoted value, or after a `/`. -/
inductive AttrState where
  | before
  | key (k : List Char)
  | afterKey (k : List Char)
  | value (k : List Char)
  | unquoted (k v : List Char)
  | double (k v : List Char)
  | single (k v : List Char)
  | afterValue
  | slash

/-- Read attributes, following the tokenizer of the HTML standard (section 13.2.5.32 to 13.2.5.40,
without character references and without lower-casing keys).  The text begins behind
the tag name.  The result is the attributes, whether the tag ended with `/>`, and the text behind
the tag; `none` if the tag does not end. -/
def readAttrs (as : List (List Char × List Char)) :
    AttrState → List Char → Option (List (List Char × List Char) × Bool × List Char)
  | _, [] => none
  | .before, c :: s =>
    if HtmlSpace c then readAttrs as .before s
    else if c = '/' then readAttrs as .slash s
    else if c = '>' then some (as, false, s)
    else readAttrs as (.key [c]) s
  | .key k, c :: s =>
    if HtmlSpace c then readAttrs as (.afterKey k) s
    else if c = '/' then readAttrs (as ++ [(k, [])]) .slash s
    else if c = '>' then some (as ++ [(k, [])], false, s)
    else if c = '=' then readAttrs as (.value k) s
    else readAttrs as (.key (k ++ [c])) s
  | .afterKey k, c :: s =>
    if HtmlSpace c then readAttrs as (.afterKey k) s
    else if c = '/' then readAttrs (as ++ [(k, [])]) .slash s
    else if c = '>' then some (as ++ [(k, [])], false, s)
    else if c = '=' then readAttrs as (.value k) s
    else readAttrs (as ++ [(k, [])]) (.key [c]) s
  | .value k, c :: s =>
    if HtmlSpace c then readAttrs as (.value k) s
    else if c = '"' then readAttrs as (.double k []) s
    else if c = '\'' then readAttrs as (.single k []) s
    else if c = '>' then some (as ++ [(k, [])], false, s)
    else readAttrs as (.unquoted k [c]) s
  | .unquoted k v, c :: s =>
    if HtmlSpace c then readAttrs (as ++ [(k, v)]) .before s
    else if c = '>' then some (as ++ [(k, v)], false, s)
    else readAttrs as (.unquoted k (v ++ [c])) s
  | .double k v, c :: s =>
    if c = '"' then readAttrs (as ++ [(k, v)]) .afterValue s
    else readAttrs as (.double k (v ++ [c])) s
  | .single k v, c :: s =>
    if c = '\'' then readAttrs (as ++ [(k, v)]) .afterValue s
    else readAttrs as (.single k (v ++ [c])) s
  | .afterValue, c :: s =>
    if HtmlSpace c then readAttrs as .before s
    else if c = '/' then readAttrs as .slash s
    else if c = '>' then some (as, false, s)
    else readAttrs as (.key [c]) s
  | .slash, c :: s =>
    if c = '>' then some (as, true, s)
    else if HtmlSpace c then readAttrs as .before s
    else if c = '/' then readAttrs as .slash s
    else readAttrs as (.key [c]) s

end Bms.Spec
