import Verif.Model.Values

/-!
# Text matching and literal parsing

Transcribes src/common/parse.hpp and src/common/parse.cpp. Strings are lists of characters, one
per byte.
-/

namespace Bms

/-! ## Characters -/

/-- `is_decimal_digit`, src/common/parse.hpp:57-60. -/
def isDecimalDigit (c : Char) : Bool := '0' ≤ c && c ≤ '9'

/-- `is_space`, src/common/parse.hpp:65-68. -/
def isSpace (c : Char) : Bool := c = ' ' || c = '\n' || c = '\t' || c = '\r'

/-- `html_identifier_characters`, src/common/parse.hpp:103-105. -/
def htmlIdentifierCharacters : List Char :=
  "abcdefghijklmnopqrstuvwxyzABCDEFGHIJKLMNOPQRSTUVWXYZ0123456789_-".toList

/-- `identifier_characters`, src/common/parse.hpp:108-109: all but the last character. -/
def identifierCharacters : List Char :=
  htmlIdentifierCharacters.take (htmlIdentifierCharacters.length - 1)

/-! ## `std::string_view` searches -/

/-- `s.find_first_not_of(set)`; `none` is `npos`. -/
def findFirstNotOf (set : List Char) : List Char → Option Nat
  | [] => none
  | c :: cs => if set.contains c then (findFirstNotOf set cs).map (· + 1) else some 0

/-- `s.find(c)`; `none` is `npos`. -/
def findChar (c : Char) : List Char → Option Nat
  | [] => none
  | d :: ds => if d = c then some 0 else (findChar c ds).map (· + 1)

/-- `s.find(pat)`; `none` is `npos`. -/
def findSub (pat : List Char) : List Char → Option Nat
  | [] => if pat.isEmpty then some 0 else none
  | d :: ds => if pat.isPrefixOf (d :: ds) then some 0 else (findSub pat ds).map (· + 1)

/-- `std::min(r, s.length())` where `r` may be `npos`. -/
def minLen (r : Option Nat) (len : Nat) : Nat :=
  match r with
  | some n => min n len
  | none => len

/-- `match_whitespace`, src/common/parse.hpp:97-100. -/
def matchWhitespace (s : List Char) : Nat :=
  minLen (findFirstNotOf [' ', '\t', '\r', '\n'] s) s.length

/-! ## Comments and strings -/

/-- `Text_Match`, src/common/parse.hpp:49-52. -/
structure TextMatch where
  length : Nat
  isTerminated : Bool
deriving DecidableEq, Repr

/-- `match_line_comment`, src/common/parse.cpp:91-101; `s.find('\n', 2)` is the search in the
text without its first two characters, plus two. -/
def matchLineComment (s : List Char) : Option TextMatch :=
  if ¬ "//".toList.isPrefixOf s then none
  else match findChar '\n' (s.drop 2) with
    | none => some ⟨s.length, false⟩
    | some e => some ⟨e + 2, true⟩

/-- `match_block_comment`, src/common/parse.cpp:103-114. -/
def matchBlockComment (s : List Char) : Option TextMatch :=
  if ¬ "/*".toList.isPrefixOf s then none
  else match findSub "*/".toList (s.drop 2) with
    | none => some ⟨s.length, false⟩
    | some e => some ⟨e + 2 + 2, true⟩

/-- The loop of `match_string_literal`, src/common/parse.cpp:121-132, over the text from index
`i`; returns the index of the closing quote. -/
def stringLoop : List Char → Nat → Bool → Option Nat
  | [], _, _ => none
  | c :: cs, i, escaped =>
    if escaped then stringLoop cs (i + 1) false
    else if c = '\\' then stringLoop cs (i + 1) true
    else if c = '"' then some i
    else stringLoop cs (i + 1) escaped

/-- `match_string_literal`, src/common/parse.cpp:116-134. -/
def matchStringLiteral (s : List Char) : Option TextMatch :=
  match s with
  | '"' :: cs =>
    match stringLoop cs 1 false with
    | some i => some ⟨i + 1, true⟩
    | none => some ⟨s.length, false⟩
  | _ => none

/-! ## Identifiers -/

/-- `match_identifier`, src/common/parse.cpp:148-155. -/
def matchIdentifier (s : List Char) : Nat :=
  match s with
  | [] => 0
  | c :: _ =>
    if isDecimalDigit c then 0
    else minLen (findFirstNotOf identifierCharacters s) s.length

/-- `detail::is_identifier`, src/common/parse.hpp:120-125. -/
def isIdentifierIn (s : List Char) (characters : List Char) : Bool :=
  match s with
  | [] => false
  | c :: _ => !isDecimalDigit c && (findFirstNotOf characters s).isNone

/-- `is_identifier`, src/common/parse.hpp:131-134. -/
def isIdentifier (s : List Char) : Bool := isIdentifierIn s identifierCharacters

/-- `is_html_identifier`, src/common/parse.hpp:138-141. -/
def isHtmlIdentifier (s : List Char) : Bool := isIdentifierIn s htmlIdentifierCharacters

/-! ## Literals -/

/-- `Literal_Type`, src/common/parse.hpp:13-18. -/
inductive LiteralType where
  | binary | octal | decimal | hexadecimal
deriving DecidableEq, Repr

/-- `Literal_Match_Result`, src/common/parse.hpp:20-47: the three values of `status` with the
members that are meaningful for them. -/
inductive LiteralMatch where
  | ok (length : Nat) (type : LiteralType)
  | no_digits
  | no_digits_following_prefix (type : LiteralType)
deriving DecidableEq, Repr

/-- `hexadecimal_digits`, src/common/parse.cpp:139. -/
def hexadecimalDigits : List Char := "0123456789abcdefABCDEF".toList

/-- `match_digits`, src/common/parse.cpp:136-146, for the bases 2, 8, 10, 16 that callers pass
(for which the assertion l.138 holds). -/
def matchDigits (s : List Char) (base : Nat) : Nat :=
  let digits := if base = 16 then hexadecimalDigits else hexadecimalDigits.take base
  minLen (findFirstNotOf digits s) s.length

/-- `match_integer_literal`, src/common/parse.cpp:157-185. -/
def matchIntegerLiteral (s : List Char) : LiteralMatch :=
  match s with
  | [] => .no_digits
  | c :: _ =>
    if ¬ isDecimalDigit c then .no_digits
    else if "0b".toList.isPrefixOf s then
      let digits := matchDigits (s.drop 2) 2
      if digits = 0 then .no_digits_following_prefix .binary else .ok (digits + 2) .binary
    else if "0x".toList.isPrefixOf s then
      let digits := matchDigits (s.drop 2) 16
      if digits = 0 then .no_digits_following_prefix .hexadecimal else .ok (digits + 2) .hexadecimal
    else if c = '0' then
      let digits := matchDigits s 8
      .ok digits (if digits = 1 then .decimal else .octal)
    else .ok (matchDigits s 10) .decimal

/-- `safe_mul`, src/common/parse.cpp:14-19: the product modulo 2^128, or `none` for `false`. -/
def safeMul (x y : Nat) : Option Nat :=
  let r := x * y % 2 ^ 128
  if r ≥ x then some r else none

/-- `safe_add`, src/common/parse.cpp:21-26. -/
def safeAdd (x y : Nat) : Option Nat :=
  let r := (x + y) % 2 ^ 128
  if r ≥ x then some r else none

/-- One iteration of the first loop of `parse_uinteger_digits`, src/common/parse.cpp:46-56. -/
def parseDigitLow (base result : Nat) (c : Char) : Option Nat :=
  if c < '0' || c > '9' then none
  else do
    let r ← safeMul result base
    safeAdd r (c.toNat - '0'.toNat)

/-- One iteration of the second loop of `parse_uinteger_digits`, src/common/parse.cpp:61-78. -/
def parseDigitHex (result : Nat) (c : Char) : Option Nat := do
  let r ← safeMul result 16
  if c ≥ '0' && c ≤ '9' then safeAdd r (c.toNat - '0'.toNat)
  else if c ≥ 'a' && c ≤ 'f' then safeAdd r (10 + c.toNat - 'a'.toNat)
  else none

/-- The body of whichever loop of `parse_uinteger_digits` runs, src/common/parse.cpp:45, 60. -/
def parseDigit (base result : Nat) (c : Char) : Option Nat :=
  if base ≤ 10 then parseDigitLow base result c else parseDigitHex result c

/-- The loops of `parse_uinteger_digits`, src/common/parse.cpp:45-80. -/
def parseDigitsLoop (base : Nat) : Nat → List Char → Option Nat
  | result, [] => some result
  | result, c :: cs => (parseDigit base result c).bind fun r => parseDigitsLoop base r cs

/-- `parse_uinteger_digits`, src/common/parse.cpp:33-81, for the bases 2, 8, 10, 16 that callers
pass (for which the assertions l.35-36 hold). -/
def parseUintegerDigits (s : List Char) (base : Nat) : Option Nat :=
  if s.isEmpty then none else parseDigitsLoop base 0 s

/-- `parse_uinteger_literal`, src/common/parse.cpp:187-202. -/
def parseUintegerLiteral (s : List Char) : Option Nat :=
  if s.isEmpty then none
  else if "0b".toList.isPrefixOf s then parseUintegerDigits (s.drop 2) 2
  else if "0x".toList.isPrefixOf s then parseUintegerDigits (s.drop 2) 16
  else if "0".toList.isPrefixOf s then parseUintegerDigits s 8
  else parseUintegerDigits s 10

/-- `parse_integer_literal`, src/common/parse.cpp:204-220; `-*positive` is on `Big_Uint`. -/
def parseIntegerLiteral (s : List Char) : Option Int :=
  if s.isEmpty then none
  else if "-".toList.isPrefixOf s then
    (parseUintegerLiteral (s.drop 1)).map fun p => toI128 ((2 ^ 128 - p) % 2 ^ 128)
  else (parseUintegerLiteral s).map toI128

end Bms
