import Verif.Model.Tokenize
import Verif.Model.ExprType

/-!
# Tables relating tokens and expression kinds

Transcribes the classification functions of src/bms/util.cpp and the translation of operator tokens
of src/bms/ast.cpp.
-/

namespace Bms

namespace TokenType

/-- `is_integer_literal`, src/bms/util.cpp:281-291. -/
def isIntegerLiteral : TokenType → Bool
  | binary_literal | octal_literal | decimal_literal | hexadecimal_literal => true
  | _ => false

/-- `is_literal`, src/bms/util.cpp:293-306. -/
def isLiteral : TokenType → Bool
  | binary_literal | octal_literal | decimal_literal | hexadecimal_literal | keyword_true
  | keyword_false | string_literal => true
  | _ => false

/-- `is_unary_operator`, src/bms/util.cpp:308-318. -/
def isUnaryOperator : TokenType → Bool
  | plus | minus | logical_not | bitwise_not => true
  | _ => false

/-- `is_arithmetic_operator`, src/bms/util.cpp:320-331. -/
def isArithmeticOperator : TokenType → Bool
  | plus | minus | multiplication | division | remainder => true
  | _ => false

/-- `is_bitwise_operator`, src/bms/util.cpp:333-345. -/
def isBitwiseOperator : TokenType → Bool
  | bitwise_and | bitwise_or | bitwise_not | bitwise_xor | shift_left | shift_right => true
  | _ => false

/-- `is_comparison_operator`, src/bms/util.cpp:347-359. -/
def isComparisonOperator : TokenType → Bool
  | equals | not_equals | less_than | greater_than | less_or_equal | greater_or_equal => true
  | _ => false

/-- `is_logical_operator`, src/bms/util.cpp:361-370. -/
def isLogicalOperator : TokenType → Bool
  | logical_not | logical_and | logical_or => true
  | _ => false

/-- `is_binary_operator`, src/bms/util.cpp:384-408. -/
def isBinaryOperator : TokenType → Bool
  | plus | minus | multiplication | division | remainder | equals | not_equals | less_than
  | greater_than | less_or_equal | greater_or_equal | logical_and | logical_or | shift_left
  | shift_right | bitwise_and | bitwise_or | bitwise_xor => true
  | _ => false

end TokenType

/-- `expression_type_token`, src/bms/util.cpp:410-445. -/
def ExprType.token : ExprType → TokenType
  | .if_expression => .keyword_if
  | .conversion => .keyword_as
  | .logical_and => .logical_and
  | .logical_or => .logical_or
  | .equals => .equals
  | .not_equals => .not_equals
  | .less_than => .less_than
  | .greater_than => .greater_than
  | .less_or_equal => .less_or_equal
  | .greater_or_equal => .greater_or_equal
  | .binary_plus => .plus
  | .binary_minus => .minus
  | .multiplication => .multiplication
  | .division => .division
  | .remainder => .remainder
  | .shift_left => .shift_left
  | .shift_right => .shift_right
  | .bitwise_and => .bitwise_and
  | .bitwise_or => .bitwise_or
  | .bitwise_xor => .bitwise_xor
  | .unary_plus => .plus
  | .unary_minus => .minus
  | .logical_not => .logical_not
  | .bitwise_not => .bitwise_not
  | .function_call => .keyword_function
  | .literal => .remainder
  | .id => .remainder

/-- `binary_expression_type_of_token`, src/bms/ast.cpp:17-40; the default case fails an assertion. -/
def binaryExprTypeOfToken : TokenType → Outcome Unit ExprType
  | .logical_and => .ok .logical_and
  | .logical_or => .ok .logical_or
  | .equals => .ok .equals
  | .not_equals => .ok .not_equals
  | .less_than => .ok .less_than
  | .greater_than => .ok .greater_than
  | .less_or_equal => .ok .less_or_equal
  | .plus => .ok .binary_plus
  | .minus => .ok .binary_minus
  | .multiplication => .ok .multiplication
  | .division => .ok .division
  | .remainder => .ok .remainder
  | .shift_left => .ok .shift_left
  | .shift_right => .ok .shift_right
  | .bitwise_and => .ok .bitwise_and
  | .bitwise_or => .ok .bitwise_or
  | .bitwise_xor => .ok .bitwise_xor
  | _ => .throws

/-- `unary_expression_type_of_token`, src/bms/ast.cpp:42-52. -/
def unaryExprTypeOfToken : TokenType → Outcome Unit ExprType
  | .plus => .ok .unary_plus
  | .minus => .ok .unary_minus
  | .logical_not => .ok .logical_not
  | .bitwise_not => .ok .bitwise_not
  | _ => .throws

end Bms
