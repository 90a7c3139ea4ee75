import Verif.Model.Outcome

/-!
# Types and values of the BMS language

Transcribes src/bms/concrete_type.hpp, src/bms/concrete_value.hpp, src/bms/value.hpp and
the error enumerations used by the evaluator.
-/

namespace Bms

/-- `Evaluation_Error_Code`, src/bms/evaluation/evaluation_error.hpp:10-21. -/
inductive EvalErr where
  | type_error
  | division_by_zero
  | shift_too_much
  | assertion_fail
  | int_to_uint_range_error
deriving DecidableEq, Repr

/-! ## 128-bit integers (src/common/config.hpp:70-73)

`Big_Int = __int128` is modelled by `Int`, `Big_Uint = unsigned __int128` by `Nat`. -/

/-- `x` is a value of `Big_Int`. -/
def InI128 (x : Int) : Prop := -2 ^ 127 ≤ x ∧ x < 2 ^ 127

instance (x : Int) : Decidable (InI128 x) := inferInstanceAs (Decidable (_ ∧ _))

/-- The cast `Big_Uint(x)` of a `Big_Int` (value modulo 2^128). -/
def toU128 (x : Int) : Nat := (x % 2 ^ 128).toNat

/-- The cast `Big_Int(n)` of a `Big_Uint` (two's complement, C++20). -/
def toI128 (n : Nat) : Int :=
  if n % 2 ^ 128 < 2 ^ 127 then ((n % 2 ^ 128 : Nat) : Int) else ((n % 2 ^ 128 : Nat) : Int) - 2 ^ 128

/-- Result of a signed 128-bit operation with exact result `x`: signed overflow is
undefined behaviour. -/
def signed128 {ε : Type} (x : Int) : Outcome ε Int := if InI128 x then .ok x else .ub

/-! ## Types -/

/-- `Concrete_Type`, src/bms/concrete_type.hpp:37-54: the `Type_Type` tag (l.13-22) together
with the width, which the constructor (l.57-63) forces to be 0 for all but `Uint`. -/
inductive CType where
  | void
  | bool
  | int
  | uint (width : Nat)
deriving DecidableEq, Repr

namespace CType

/-- The condition asserted by the constructor for widths, src/bms/concrete_type.hpp:61-62:
`type != Uint || (width > 0 && width < uint_max_width)`. -/
def WF : CType → Prop
  | uint w => 0 < w ∧ w < 128
  | _ => True

instance : (t : CType) → Decidable t.WF
  | uint w => inferInstanceAs (Decidable (0 < w ∧ w < 128))
  | void => inferInstanceAs (Decidable True)
  | bool => inferInstanceAs (Decidable True)
  | int => inferInstanceAs (Decidable True)

/-- `Concrete_Type::Uint(width)`, src/bms/concrete_type.hpp:45-50 followed by the constructor
l.57-63: throws unless all four assertions hold. -/
def mkUint {ε : Type} (width : Int) : Outcome ε CType := do
  Outcome.assert (width ≤ 128)
  Outcome.assert (width > 1)
  Outcome.assert (width > 0 && width < 128)
  .ok (.uint width.toNat)

/-- `Concrete_Type::width`, src/bms/concrete_type.hpp:76-79. -/
def width : CType → Nat
  | uint w => w
  | _ => 0

/-- `Concrete_Type::is_convertible_to`, src/bms/concrete_type.hpp:81-84. -/
def isConvertibleTo (t other : CType) : Bool :=
  t = other || (match other, t with
    | .uint _, .int => true
    | _, _ => false)

/-- `Concrete_Type::get_mask`, src/bms/concrete_type.hpp:92-104. -/
def getMask : CType → Nat
  | void => 0
  | bool => 1
  | int => 2 ^ 128 - 1
  | uint w => if w = 128 then 0 else ((1 <<< w) % 2 ^ 128 + (2 ^ 128 - 1)) % 2 ^ 128

/-- `Concrete_Type::can_represent`, src/bms/concrete_type.hpp:108-111;
`~mask` is the complement in 128 bits. -/
def canRepresent (t : CType) (v : Int) : Bool :=
  t ≠ .void && (toU128 v &&& ((2 ^ 128 - 1) ^^^ t.getMask)) = 0

/-- `Concrete_Type::is_integer`, src/bms/concrete_type.hpp:114-117. -/
def isInteger : CType → Bool
  | int => true
  | uint _ => true
  | _ => false

/-- `Concrete_Type::is_uint`, src/bms/concrete_type.hpp:120-123. -/
def isUint : CType → Bool
  | uint _ => true
  | _ => false

end CType

/-! ## Concrete values -/

/-- `Conversion_Type`, src/bms/concrete_value.hpp:13-18. -/
inductive ConvKind where
  | lossless_numeric
  | truncating_numeric
deriving DecidableEq, Repr

/-- `Concrete_Value`, src/bms/concrete_value.hpp:20-22. -/
structure CVal where
  type : CType
  int : Int
deriving DecidableEq, Repr

namespace CVal

/-- `Concrete_Value::Void`, src/bms/concrete_value.hpp:70. -/
def void : CVal := ⟨.void, 0⟩
/-- `Concrete_Value::True`, src/bms/concrete_value.hpp:71. -/
def tt : CVal := ⟨.bool, 1⟩
/-- `Concrete_Value::False`, src/bms/concrete_value.hpp:72. -/
def ff : CVal := ⟨.bool, 0⟩
/-- The `Bool` value of a C++ `bool`, e.g. `Concrete_Value { Concrete_Type::Bool, Big_Int(b) }`. -/
def ofBool (b : Bool) : CVal := ⟨.bool, if b then 1 else 0⟩
/-- `Concrete_Value::Int`, src/bms/concrete_value.hpp:26-29. -/
def ofInt (x : Int) : CVal := ⟨.int, x⟩

/-- `Concrete_Value::convert_to`, src/bms/concrete_value.hpp:42-60. -/
def convertTo (v : CVal) (other : CType) (conv : ConvKind) : Outcome EvalErr CVal :=
  if v.type = other then .ok v
  else if ¬ v.type.isConvertibleTo other then .err .type_error
  else if other.isUint then
    let truncated := toU128 v.int &&& other.getMask
    if conv = .lossless_numeric ∧ truncated ≠ toU128 v.int then
      .err .int_to_uint_range_error
    else .ok ⟨other, toI128 truncated⟩
  else .throws

/-- `Concrete_Value::transform_uint`, src/bms/concrete_value.hpp:62-67. The shift by the
width is undefined for widths of 128 and more (unreachable for well-formed types). -/
def transformUint (v : CVal) (f : Nat → Nat) : Outcome EvalErr CVal := do
  Outcome.assert v.type.isUint
  if v.type.width ≥ 128 then .ub
  else
    let mask := ((1 <<< v.type.width) % 2 ^ 128 + (2 ^ 128 - 1)) % 2 ^ 128
    .ok ⟨v.type, toI128 (f (toU128 v.int) &&& mask)⟩

end CVal

/-! ## Possibly unknown values -/

/-- `Value`, src/bms/value.hpp:14-18 (`m_type`, `m_int_value`, `m_known`). An unknown value
is `val = none`; the C++ object then stores 0 in `m_int_value`, which is never read. -/
structure Value where
  type : CType
  val : Option Int
deriving DecidableEq, Repr

namespace Value

/-- `Value::unknown_of_type`, src/bms/value.hpp:35-38. -/
def unknownOf (t : CType) : Value := ⟨t, none⟩

/-- The constructor from a `Concrete_Value`, src/bms/value.hpp:57-62. -/
def known (v : CVal) : Value := ⟨v.type, some v.int⟩

/-- `Value::Void`, src/bms/value.hpp:170. -/
def void : Value := known CVal.void
/-- `Value::True` / `Value::False`, src/bms/value.hpp:171-172. -/
def ofBool (b : Bool) : Value := known (CVal.ofBool b)

/-- `Value::is_known`, src/bms/value.hpp:70-73. -/
def isKnown (v : Value) : Bool := v.val.isSome

/-- `Value::concrete_value`, src/bms/value.hpp:136-140: throws if unknown. -/
def concrete {ε : Type} (v : Value) : Outcome ε CVal :=
  match v.val with
  | some x => .ok ⟨v.type, x⟩
  | none => .throws

/-- `Value::convert_to`, src/bms/value.hpp:117-131. -/
def convertTo (v : Value) (other : CType) (conv : ConvKind) : Outcome EvalErr Value :=
  if ¬ v.type.isConvertibleTo other then .err .type_error
  else match v.val with
    | none => .ok (unknownOf other)
    | some x => (CVal.convertTo ⟨v.type, x⟩ other conv).map known

/-- `Value::as_bool`, src/bms/value.hpp:145-149. -/
def asBool {ε : Type} (v : Value) : Outcome ε Bool :=
  match v.val with
  | some x => if v.type = .bool then .ok (x ≠ 0) else .throws
  | none => .throws

/-- `Value::as_int`, src/bms/value.hpp:154-158. -/
def asInt {ε : Type} (v : Value) : Outcome ε Int :=
  match v.val with
  | some x => if v.type = .int then .ok x else .throws
  | none => .throws

/-- `Value::as_uint`, src/bms/value.hpp:163-167. -/
def asUint {ε : Type} (v : Value) : Outcome ε Nat :=
  match v.val with
  | some x => if v.type.isUint then .ok (toU128 x) else .throws
  | none => .throws

end Value

end Bms
