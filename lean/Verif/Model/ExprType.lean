import Verif.Model.Outcome

/-!
# Expression kinds and precedence

Transcribes src/bms/expression_type.hpp.
-/

namespace Bms

/-- `Expression_Type`, src/bms/expression_type.hpp:14-49, in enumeration order. -/
inductive ExprType where
  | if_expression | conversion
  | logical_and | logical_or
  | equals | not_equals | less_than | greater_than | less_or_equal | greater_or_equal
  | binary_plus | binary_minus | multiplication | division | remainder
  | shift_left | shift_right | bitwise_and | bitwise_or | bitwise_xor
  | unary_plus | unary_minus | logical_not | bitwise_not
  | function_call
  | literal | id
deriving DecidableEq, Repr

namespace ExprType

/-- The enumerator value (`Default_Underlying(type)`), src/bms/expression_type.hpp:14-49. -/
def code : ExprType → Nat
  | if_expression => 0 | conversion => 1
  | logical_and => 2 | logical_or => 3
  | equals => 4 | not_equals => 5 | less_than => 6 | greater_than => 7
  | less_or_equal => 8 | greater_or_equal => 9
  | binary_plus => 10 | binary_minus => 11 | multiplication => 12 | division => 13
  | remainder => 14
  | shift_left => 15 | shift_right => 16 | bitwise_and => 17 | bitwise_or => 18
  | bitwise_xor => 19
  | unary_plus => 20 | unary_minus => 21 | logical_not => 22 | bitwise_not => 23
  | function_call => 24
  | literal => 25 | id => 26

/-- All enumerators. -/
def all : List ExprType :=
  [if_expression, conversion, logical_and, logical_or, equals, not_equals, less_than,
   greater_than, less_or_equal, greater_or_equal, binary_plus, binary_minus, multiplication,
   division, remainder, shift_left, shift_right, bitwise_and, bitwise_or, bitwise_xor,
   unary_plus, unary_minus, logical_not, bitwise_not, function_call, literal, id]

theorem mem_all (t : ExprType) : t ∈ all := by cases t <;> decide

/-- `is_prefix_unary`, src/bms/expression_type.hpp:65-75. -/
def isPrefixUnary : ExprType → Bool
  | unary_plus | unary_minus | logical_not | bitwise_not => true
  | _ => false

/-- `is_equality_comparison`, src/bms/expression_type.hpp:77-80. -/
def isEqualityComparison : ExprType → Bool
  | equals | not_equals => true
  | _ => false

/-- `is_relational_comparison`, src/bms/expression_type.hpp:82-92. -/
def isRelationalComparison : ExprType → Bool
  | less_than | greater_than | less_or_equal | greater_or_equal => true
  | _ => false

/-- `is_binary_comparison`, src/bms/expression_type.hpp:94-97. -/
def isBinaryComparison (t : ExprType) : Bool :=
  t.isEqualityComparison || t.isRelationalComparison

/-- `is_unary_arithmetic`, src/bms/expression_type.hpp:99-102. -/
def isUnaryArithmetic : ExprType → Bool
  | unary_plus | unary_minus => true
  | _ => false

/-- `is_binary_arithmetic`, src/bms/expression_type.hpp:104-115. -/
def isBinaryArithmetic : ExprType → Bool
  | binary_plus | binary_minus | multiplication | division | remainder => true
  | _ => false

/-- `is_binary_bitwise`, src/bms/expression_type.hpp:122-133. -/
def isBinaryBitwise : ExprType → Bool
  | bitwise_and | bitwise_or | bitwise_xor | shift_left | shift_right => true
  | _ => false

/-- `is_binary_logical`, src/bms/expression_type.hpp:135-138. -/
def isBinaryLogical : ExprType → Bool
  | logical_and | logical_or => true
  | _ => false

/-- `is_binary`, src/bms/expression_type.hpp:145-149: the enumerator range from `conversion`
to `bitwise_xor` (so `conversion` itself counts as binary). -/
def isBinary (t : ExprType) : Bool :=
  t.code ≥ conversion.code && t.code ≤ bitwise_xor.code

end ExprType

/-- `detail::Precedence_Group`, src/bms/expression_type.hpp:155-164. -/
inductive PrecGroup where
  | conversion_and_if | binary_logical | binary_comparison | binary_arithmetic
  | binary_bitwise | prefix_unary | postfix_unary | primary
deriving DecidableEq, Repr

namespace PrecGroup

/-- Enumerator value, src/bms/expression_type.hpp:155-164. -/
def code : PrecGroup → Nat
  | conversion_and_if => 0 | binary_logical => 1 | binary_comparison => 2
  | binary_arithmetic => 3 | binary_bitwise => 4 | prefix_unary => 5
  | postfix_unary => 6 | primary => 7

/-- `detail::is_binary`, src/bms/expression_type.hpp:166-176. -/
def isBinary : PrecGroup → Bool
  | binary_logical | binary_comparison | binary_arithmetic | binary_bitwise => true
  | _ => false

end PrecGroup

/-- `std::partial_ordering`. -/
inductive POrd where
  | less | greater | equivalent | unordered
deriving DecidableEq, Repr

/-- `operator<=>(Precedence_Group, Precedence_Group)`, src/bms/expression_type.hpp:178-196. -/
def PrecGroup.cmp (x y : PrecGroup) : POrd :=
  if x = y then .unordered
  else if x.isBinary && y.isBinary then
    if x = .binary_comparison ∧ y = .binary_arithmetic then .less
    else if y = .binary_comparison ∧ x = .binary_arithmetic then .greater
    else .unordered
  else if x.code < y.code then .less
  else if x.code > y.code then .greater
  else .unordered

/-- `detail::precedence_group_of`, src/bms/expression_type.hpp:198-237. -/
def ExprType.precGroup : ExprType → PrecGroup
  | conversion | if_expression => .conversion_and_if
  | equals | not_equals | less_than | greater_than | less_or_equal | greater_or_equal =>
    .binary_comparison
  | binary_plus | binary_minus | multiplication | division | remainder => .binary_arithmetic
  | shift_left | shift_right | bitwise_and | bitwise_or | bitwise_xor
  | logical_and | logical_or => .binary_bitwise
  | unary_plus | unary_minus | logical_not | bitwise_not => .prefix_unary
  | function_call => .postfix_unary
  | literal | id => .primary

/-- `compare_precedence`, src/bms/expression_type.hpp:252-255. -/
def comparePrecedence (x y : ExprType) : POrd := PrecGroup.cmp x.precGroup y.precGroup

end Bms
