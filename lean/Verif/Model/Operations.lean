import Verif.Model.Values
import Verif.Model.ExprType

/-!
# Type checking and evaluation of operators

Transcribes src/bms/evaluation/operations.cpp and src/bms/evaluation/builtin_function.hpp.
-/

namespace Bms

/-- The part of `Analysis_Error_Code` (src/bms/analysis_error.hpp:17-134) that the operator
checks report. -/
inductive CheckErr where
  | invalid_operator | void_operation | bool_arithmetic | bool_bitwise
  | bool_relational_comparison | int_bitwise | int_logical | uint_logical
  | incompatible_types | incompatible_widths | condition_not_bool
  | wrong_number_of_arguments | wrong_argument_type
deriving DecidableEq, Repr

/-- `get_common_type`, src/bms/evaluation/operations.cpp:11-27. -/
def getCommonType (lhs rhs : CType) : Outcome CheckErr CType :=
  if lhs = rhs then .ok lhs
  else match lhs, rhs with
    | .uint _, .uint _ => .err .incompatible_widths
    | .int, .uint _ => .ok rhs
    | .uint _, .int => .ok lhs
    | _, _ => .err .incompatible_types

/-- `check_unary_operator`, src/bms/evaluation/operations.cpp:157-199. -/
def checkUnary (op : ExprType) (t : CType) : Outcome CheckErr CType :=
  if ¬ op.isPrefixUnary then .err .invalid_operator
  else match t with
    | .void => .err .void_operation
    | .bool =>
      if op.isUnaryArithmetic then .err .bool_arithmetic
      else if op = .bitwise_not then .err .bool_bitwise
      else .ok t
    | .int =>
      if op = .bitwise_not then .err .int_bitwise
      else if op = .logical_not then .err .int_logical
      else .ok t
    | .uint _ =>
      if op = .logical_not then .err .uint_logical
      else .ok t

/-- The type switch of `check_binary_operator`, src/bms/evaluation/operations.cpp:216-256,
on the common type. (The width check l.246-248 compares the common type with itself.) -/
def checkBinaryCommon (op : ExprType) (t : CType) : Outcome CheckErr CType :=
  match t with
  | .void => .err .void_operation
  | .bool =>
    if op.isBinaryArithmetic then .err .bool_arithmetic
    else if op.isBinaryBitwise then .err .bool_bitwise
    else if op.isRelationalComparison then .err .bool_relational_comparison
    else .ok .bool
  | .int =>
    if op.isBinaryBitwise then .err .int_bitwise
    else if op.isBinaryLogical then .err .int_logical
    else .ok (if op.isBinaryComparison then .bool else t)
  | .uint _ =>
    if op.isBinaryLogical then .err .uint_logical
    else .ok (if op.isBinaryComparison then .bool else t)

/-- `check_binary_operator`, src/bms/evaluation/operations.cpp:201-257. -/
def checkBinary (lhs : CType) (op : ExprType) (rhs : CType) : Outcome CheckErr CType :=
  if ¬ op.isBinary then .err .invalid_operator
  else if lhs = .void ∨ rhs = .void then .err .void_operation
  else do
    let common ← getCommonType lhs rhs
    checkBinaryCommon op common

/-- `check_if_expression`, src/bms/evaluation/operations.cpp:259-270. -/
def checkIf (lhs cond rhs : CType) : Outcome CheckErr CType :=
  if cond ≠ .bool then .err .condition_not_bool
  else getCommonType lhs rhs

/-- `Builtin_Function`, src/bms/evaluation/builtin_function.hpp:11-14. -/
inductive Builtin where
  | assert
deriving DecidableEq, Repr

/-- `builtin_parameter_types`, src/bms/evaluation/builtin_function.hpp:51-58 (and
`builtin_parameter_count` l.21-28, which returns its length). -/
def Builtin.paramTypes : Builtin → List CType
  | .assert => [.bool]

/-- `check_builtin_function_impl`, src/bms/evaluation/operations.cpp:88-107. -/
def checkBuiltin (f : Builtin) (args : List CType) : Outcome CheckErr CType :=
  if f.paramTypes.length ≠ args.length then .err .wrong_number_of_arguments
  else match f with
    | .assert => if args[0]? ≠ some .bool then .err .wrong_argument_type else .ok .void

/-! ## Concrete evaluation -/

/-- `evaluate_conversion(Concrete_Value, ...)`, src/bms/evaluation/operations.cpp:294-298. -/
def evalConversion (v : CVal) (to : CType) : Outcome EvalErr CVal :=
  v.convertTo to .lossless_numeric

/-- `convert_to_equal_type`, src/bms/evaluation/operations.cpp:41-70, for concrete values. -/
def convertToEqual (lhs rhs : CVal) : Outcome EvalErr (CVal × CVal) := do
  let common ← (getCommonType lhs.type rhs.type).mapErr fun _ => EvalErr.type_error
  let l ← lhs.convertTo common .lossless_numeric
  let r ← rhs.convertTo common .lossless_numeric
  .ok (l, r)

/-- `evaluate_unary_operator(op, Concrete_Value)`, src/bms/evaluation/operations.cpp:300-341.
Unsigned negation and complement are on 128 bits (l.331, l.334). -/
def evalUnary (op : ExprType) (v : CVal) : Outcome EvalErr CVal := do
  let _ ← (checkUnary op v.type).mapErr fun _ => EvalErr.type_error
  match v.type with
  | .bool =>
    if op = .logical_not then .ok ⟨.bool, toI128 (toU128 v.int ^^^ 1)⟩
    else .throws
  | .int =>
    if op = .unary_plus then .ok v
    else if op = .unary_minus then (signed128 (-v.int)).map fun x => ⟨.int, x⟩
    else .throws
  | .uint _ =>
    if op = .unary_plus then .ok v
    else if op = .unary_minus then v.transformUint fun x => (2 ^ 128 - x) % 2 ^ 128
    else if op = .bitwise_not then v.transformUint fun x => (2 ^ 128 - 1) ^^^ x
    else .throws
  | .void => .throws

/-- The local lambda `transform_uint` of `evaluate_binary_operator`,
src/bms/evaluation/operations.cpp:363-369. -/
def transformUint2 (lhs rhs : CVal) (f : Nat → Nat → Nat) : CVal :=
  let result := f (toU128 lhs.int) (toU128 rhs.int)
  let result := if lhs.type.width ≠ 128 then
      result &&& (((1 <<< rhs.type.width) % 2 ^ 128 + (2 ^ 128 - 1)) % 2 ^ 128)
    else result
  ⟨lhs.type, toI128 result⟩

/-- The local lambda `compare_uint`, src/bms/evaluation/operations.cpp:358-361. -/
def compareUint (lhs rhs : CVal) (f : Nat → Nat → Bool) : CVal :=
  CVal.ofBool (f (toU128 lhs.int) (toU128 rhs.int))

/-- `Big_Uint << Big_Uint` / `>>`: undefined for amounts of 128 and more
([expr.shift]; src/bms/evaluation/operations.cpp:448-451). -/
def shiftGuard {α : Type} (amount : Nat) (r : α) : Outcome EvalErr α :=
  if amount < 128 then .ok r else .ub

/-- The `Int` arm of the switch in `evaluate_binary_operator`,
src/bms/evaluation/operations.cpp:404-424. -/
def evalBinaryInt (l : CVal) (op : ExprType) (r : CVal) : Outcome EvalErr CVal :=
  match op with
  | .less_than => .ok (CVal.ofBool (l.int < r.int))
  | .greater_than => .ok (CVal.ofBool (l.int > r.int))
  | .less_or_equal => .ok (CVal.ofBool (l.int ≤ r.int))
  | .greater_or_equal => .ok (CVal.ofBool (l.int ≥ r.int))
  | .binary_plus => (signed128 (l.int + r.int)).map CVal.ofInt
  | .binary_minus => (signed128 (l.int - r.int)).map CVal.ofInt
  | .multiplication => (signed128 (l.int * r.int)).map CVal.ofInt
  | _ => .throws

/-- The `Uint` arm of the switch in `evaluate_binary_operator`,
src/bms/evaluation/operations.cpp:426-456. -/
def evalBinaryUint (l : CVal) (op : ExprType) (r : CVal) : Outcome EvalErr CVal :=
  match op with
  | .less_than => .ok (compareUint l r fun x y => x < y)
  | .greater_than => .ok (compareUint l r fun x y => x > y)
  | .less_or_equal => .ok (compareUint l r fun x y => x ≤ y)
  | .greater_or_equal => .ok (compareUint l r fun x y => x ≥ y)
  | .binary_plus => .ok (transformUint2 l r fun x y => (x + y) % 2 ^ 128)
  | .binary_minus => .ok (transformUint2 l r fun x y => (x + (2 ^ 128 - y)) % 2 ^ 128)
  | .multiplication => .ok (transformUint2 l r fun x y => (x * y) % 2 ^ 128)
  | .bitwise_and => .ok (transformUint2 l r fun x y => x &&& y)
  | .bitwise_or => .ok (transformUint2 l r fun x y => x ||| y)
  | .bitwise_xor => .ok (transformUint2 l r fun x y => x ^^^ y)
  | .shift_left =>
    shiftGuard (toU128 r.int) (transformUint2 l r fun x y => (x <<< y) % 2 ^ 128)
  | .shift_right =>
    shiftGuard (toU128 r.int) (transformUint2 l r fun x y => x >>> y)
  | _ => .throws

/-- The `Bool` arm of the switch in `evaluate_binary_operator`,
src/bms/evaluation/operations.cpp:394-402. `==` and `!=` are not handled here, nor before. -/
def evalBinaryBool (l : CVal) (op : ExprType) (r : CVal) : Outcome EvalErr CVal :=
  match op with
  | .logical_and => .ok (CVal.ofBool (l.int ≠ 0 && r.int ≠ 0))
  | .logical_or => .ok (CVal.ofBool (l.int ≠ 0 || r.int ≠ 0))
  | _ => .throws

/-- The body of `evaluate_binary_operator` after conversion to a common type,
src/bms/evaluation/operations.cpp:371-459. Signed `/` and `%` are undefined if the quotient
is not representable. -/
def evalBinaryEqual (l : CVal) (op : ExprType) (r : CVal) : Outcome EvalErr CVal :=
  let typed : Outcome EvalErr CVal :=
    match l.type with
    | .bool => evalBinaryBool l op r
    | .int => evalBinaryInt l op r
    | .uint _ => evalBinaryUint l op r
    | .void => .throws
  if l.type.isInteger then
    match op with
    | .division =>
      if r.int = 0 then .err .division_by_zero
      else (signed128 (l.int.tdiv r.int)).map fun q => ⟨l.type, q⟩
    | .remainder =>
      if r.int = 0 then .err .division_by_zero
      else (signed128 (l.int.tdiv r.int)).map fun _ => ⟨l.type, l.int.tmod r.int⟩
    | .equals => .ok (CVal.ofBool (l.int = r.int))
    | .not_equals => .ok (CVal.ofBool (l.int ≠ r.int))
    | _ => typed
  else typed

/-- `evaluate_binary_operator(Concrete_Value, ...)`,
src/bms/evaluation/operations.cpp:343-460. -/
def evalBinary (lhs : CVal) (op : ExprType) (rhs : CVal) : Outcome EvalErr CVal := do
  let _ ← (checkBinary lhs.type op rhs.type).mapErr fun _ => EvalErr.type_error
  let (l, r) ← convertToEqual lhs rhs
  Outcome.assert (l.type = r.type)
  evalBinaryEqual l op r

/-- `evaluate_if_expression(Concrete_Value, ...)`,
src/bms/evaluation/operations.cpp:462-472. -/
def evalIf (lhs cond rhs : CVal) : Outcome EvalErr CVal := do
  let t ← (checkIf lhs.type cond.type rhs.type).mapErr fun _ => EvalErr.type_error
  (if cond.int ≠ 0 then lhs else rhs).convertTo t .lossless_numeric

/-- `unsafe_evaluate_builtin_function_impl`, src/bms/evaluation/operations.cpp:117-142;
`begin[0]` on an empty range cannot happen after the check. -/
def unsafeEvalBuiltin (f : Builtin) (args : List CVal) : Outcome EvalErr CVal := do
  let _ ← (checkBuiltin f (args.map CVal.type)).mapErr fun _ => EvalErr.type_error
  match f with
  | .assert =>
    match args with
    | [] => .ub
    | a :: _ => if a.int ≠ 1 then .err .assertion_fail else .ok CVal.void

/-- `evaluate_builtin_function(Concrete_Value)`, src/bms/evaluation/operations.cpp:474-482. -/
def evalBuiltin (f : Builtin) (args : List CVal) : Outcome EvalErr CVal := do
  let _ ← (checkBuiltin f (args.map CVal.type)).mapErr fun _ => EvalErr.type_error
  unsafeEvalBuiltin f args

/-! ## Evaluation of possibly unknown values -/

/-- `evaluate_conversion(Value, ...)`, src/bms/evaluation/operations.cpp:486-490. -/
def evalConversionV (v : Value) (to : CType) : Outcome EvalErr Value :=
  v.convertTo to .lossless_numeric

/-- `convert_to_equal_type`, src/bms/evaluation/operations.cpp:41-64, 72-75, for `Value`. -/
def convertToEqualV (lhs rhs : Value) : Outcome EvalErr (Value × Value) := do
  let common ← (getCommonType lhs.type rhs.type).mapErr fun _ => EvalErr.type_error
  let l ← lhs.convertTo common .lossless_numeric
  let r ← rhs.convertTo common .lossless_numeric
  .ok (l, r)

/-- `evaluate_unary_operator(op, Value)`, src/bms/evaluation/operations.cpp:492-503. -/
def evalUnaryV (op : ExprType) (v : Value) : Outcome EvalErr Value := do
  let _ ← (checkUnary op v.type).mapErr fun _ => EvalErr.type_error
  match v.val with
  | none => .ok v
  | some x => (evalUnary op ⟨v.type, x⟩).map Value.known

/-- The checks on a known right operand, src/bms/evaluation/operations.cpp:520-531. `as_int`
throws for `Uint` values. -/
def checkKnownRhs (op : ExprType) (l r : Value) : Outcome EvalErr Unit := do
  if op = .division ∨ op = .remainder then
    if (← r.asInt) = 0 then Outcome.err EvalErr.division_by_zero else .ok ()
  else if op = .shift_left ∨ op = .shift_right then
    let s ← r.asInt
    if s < 0 ∨ s ≥ l.type.width then Outcome.err EvalErr.shift_too_much else .ok ()
  else .ok ()

/-- `evaluate_binary_operator(Value, ...)`, src/bms/evaluation/operations.cpp:505-534. -/
def evalBinaryV (lhs : Value) (op : ExprType) (rhs : Value) : Outcome EvalErr Value := do
  let t ← (checkBinary lhs.type op rhs.type).mapErr fun _ => EvalErr.type_error
  let (l, r) ← convertToEqualV lhs rhs
  match l.val, r.val with
  | some x, some y => (evalBinary ⟨l.type, x⟩ op ⟨r.type, y⟩).map Value.known
  | none, some _ => do
    checkKnownRhs op l r
    .ok (Value.unknownOf t)
  | _, none => .ok (Value.unknownOf t)

/-- `evaluate_if_expression(Value, ...)`, src/bms/evaluation/operations.cpp:536-549. -/
def evalIfV (lhs cond rhs : Value) : Outcome EvalErr Value := do
  let t ← (checkIf lhs.type cond.type rhs.type).mapErr fun _ => EvalErr.type_error
  if ¬ cond.isKnown then .ok (Value.unknownOf t)
  else
    let b ← cond.asBool
    (if b then lhs else rhs).convertTo t .lossless_numeric

/-- All concrete values of a list of `Value`s, each throwing if unknown
(`std::views::transform(&Value::concrete_value)`). -/
def concreteAll {ε : Type} : List Value → Outcome ε (List CVal)
  | [] => .ok []
  | v :: vs => do
    let c ← v.concrete
    let cs ← concreteAll vs
    .ok (c :: cs)

/-- `evaluate_builtin_function(Value)`, src/bms/evaluation/operations.cpp:551-567. -/
def evalBuiltinV (f : Builtin) (args : List Value) : Outcome EvalErr Value := do
  let t ← (checkBuiltin f (args.map Value.type)).mapErr fun _ => EvalErr.type_error
  if args.any (fun a => !a.isKnown) then .ok (Value.unknownOf t)
  else
    let cs ← concreteAll args
    (unsafeEvalBuiltin f cs).map Value.known

end Bms
