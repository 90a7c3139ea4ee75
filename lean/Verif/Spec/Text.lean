import Verif.Model.Text

/-!
# Specification: texts

Character classes by ranges, identifiers, comments, string literals, integer literals with their
mathematical value. Nothing here refers to the matching functions.
-/

namespace Bms.Spec

def InRange (lo c hi : Char) : Prop := lo.toNat ≤ c.toNat ∧ c.toNat ≤ hi.toNat

instance (lo c hi : Char) : Decidable (InRange lo c hi) := inferInstanceAs (Decidable (_ ∧ _))

/-- `[_a-zA-Z]` -/
def IdentStart (c : Char) : Prop := c = '_' ∨ InRange 'a' c 'z' ∨ InRange 'A' c 'Z'

/-- `[_a-zA-Z0-9]` -/
def IdentPart (c : Char) : Prop := IdentStart c ∨ InRange '0' c '9'

instance (c : Char) : Decidable (IdentStart c) := inferInstanceAs (Decidable (_ ∨ _))
instance (c : Char) : Decidable (IdentPart c) := inferInstanceAs (Decidable (_ ∨ _))

/-- `[_a-zA-Z][_a-zA-Z0-9]*` -/
def Ident : List Char → Prop
  | [] => False
  | c :: cs => IdentStart c ∧ ∀ d ∈ cs, IdentPart d

/-- The value of a digit in bases up to 16, in either case. -/
def digitOf (c : Char) : Option Nat :=
  if InRange '0' c '9' then some (c.toNat - '0'.toNat)
  else if InRange 'a' c 'f' then some (10 + (c.toNat - 'a'.toNat))
  else if InRange 'A' c 'F' then some (10 + (c.toNat - 'A'.toNat))
  else none

/-- Positional value: the sum of `digit * base ^ position`. -/
def positional (base : Nat) : List Nat → Nat
  | [] => 0
  | d :: ds => d * base ^ ds.length + positional base ds

/-- `text` is a sequence of digits of the base, and `v` is its positional value. -/
def Digits (base : Nat) (text : List Char) (v : Nat) : Prop :=
  ∃ ds : List Nat, text.map digitOf = ds.map some ∧ (∀ d ∈ ds, d < base) ∧ positional base ds = v

/-- `text` is an integer literal of the given kind with mathematical value `v`. -/
inductive Literal : LiteralType → List Char → Nat → Prop
  | binary {t v} : t ≠ [] → Digits 2 t v → Literal .binary ('0' :: 'b' :: t) v
  | hexadecimal {t v} : t ≠ [] → Digits 16 t v → Literal .hexadecimal ('0' :: 'x' :: t) v
  | octal {t v} : t ≠ [] → Digits 8 t v → Literal .octal ('0' :: t) v
  | zero : Literal .decimal ['0'] 0
  | decimal {c t v} : c ≠ '0' → Digits 10 (c :: t) v → Literal .decimal (c :: t) v

/-- No upper case hexadecimal digit. -/
def LowerCase (s : List Char) : Prop := ∀ c ∈ s, ¬ InRange 'A' c 'F'

/-- The body of a string literal: characters other than `"` and `\`, and escape pairs. -/
inductive StringBody : List Char → Prop
  | nil : StringBody []
  | plain {c cs} : c ≠ '"' → c ≠ '\\' → StringBody cs → StringBody (c :: cs)
  | escape {c cs} : StringBody cs → StringBody ('\\' :: c :: cs)

end Bms.Spec
