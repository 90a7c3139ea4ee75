import Verif.Model.Values

/-!
# Decimal text of 128-bit integers

Transcribes `to_string` of src/common/diagnostics.cpp:30-42 (declared in src/common/to_string.hpp).
-/

namespace Bms

/-- The character of a decimal digit. -/
def decimalDigit (d : Nat) : Char := Char.ofNat ('0'.toNat + d)

/-- `std::to_string` for unsigned integers: the standard library is not part of the repository, so its
result is given as specified by the C++ standard, the decimal representation. -/
def stdToString (n : Nat) : List Char :=
  if n < 10 then [decimalDigit n] else stdToString (n / 10) ++ [decimalDigit (n % 10)]
termination_by n
decreasing_by exact Nat.div_lt_self (by omega) (by omega)

/-- `exp10_19`, src/common/diagnostics.cpp:33. -/
def exp10_19 : Nat := 10000000000000000000

/-- `to_string(Uint128)`, src/common/diagnostics.cpp:30-37. The conversions to `Uint64` do not change the
values, which are at most `2 ^ 64 - 1` and less than `exp10_19`. -/
def toStringUint (x : Nat) : List Char :=
  if x ≤ 2 ^ 64 - 1 then stdToString x
  else toStringUint (x / exp10_19) ++ stdToString (x % exp10_19)
termination_by x
decreasing_by exact Nat.div_lt_self (by omega) (by decide)

/-- `to_string(Int128)`, src/common/diagnostics.cpp:39-42. -/
def toStringInt (x : Int) : List Char :=
  if x ≥ 0 then toStringUint (toU128 x)
  else '-' :: toStringUint ((2 ^ 128 - toU128 x) % 2 ^ 128)

end Bms
