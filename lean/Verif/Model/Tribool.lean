import Verif.Model.Outcome

/-!
# Three-valued logic

Transcribes src/common/tribool.hpp. The member `signed char underlying` is a `BitVec 8`. The C++
operators promote to `int` and convert back, which for bitwise operations is the same as operating
on eight bits.
-/

namespace Bms

/-- `Tribool`, src/common/tribool.hpp:9-11. -/
structure Tribool where
  underlying : BitVec 8
deriving DecidableEq, Repr

namespace Tribool

/-- `Tribool::fawse`, `twue`, `maybe`, src/common/tribool.hpp:74-76. -/
def fawse : Tribool := ⟨0#8⟩
def twue : Tribool := ⟨BitVec.ofInt 8 (-1)⟩
def maybe : Tribool := ⟨1#8⟩

/-- `BIT_MANIPULATION_ASSUME(x >= -1 && x <= 1)`: undefined behaviour if violated. -/
def inRange (x : BitVec 8) : Bool := -1 ≤ x.toInt && x.toInt ≤ 1

/-- `explicit Tribool(int x)`, src/common/tribool.hpp:13-17. -/
def ofInt (x : BitVec 8) : Outcome Unit Tribool := if inRange x then .ok ⟨x⟩ else .ub

/-- `Tribool(bool x)`, src/common/tribool.hpp:24-27: `-int(x)`. -/
def ofBool (b : Bool) : Tribool := ⟨-(if b then 1#8 else 0#8)⟩

/-- `operator!`, src/common/tribool.hpp:33-37. -/
def not (x : Tribool) : Outcome Unit Tribool :=
  if inRange x.underlying then
    if x = maybe then .ok maybe else ofInt (~~~x.underlying)
  else .ub

/-- `operator&&`, src/common/tribool.hpp:39-45. -/
def and (x y : Tribool) : Outcome Unit Tribool :=
  if inRange x.underlying && inRange y.underlying then ofInt (x.underlying &&& y.underlying)
  else .ub

/-- `operator||`, src/common/tribool.hpp:47-53. -/
def or (x y : Tribool) : Outcome Unit Tribool :=
  if inRange x.underlying && inRange y.underlying then ofInt (x.underlying ||| y.underlying)
  else .ub

/-- `equals`, src/common/tribool.hpp:55-62. -/
def equals (x y : Tribool) : Outcome Unit Tribool :=
  if inRange x.underlying && inRange y.underlying then
    if x = maybe ∨ y = maybe then .ok maybe else ofInt (~~~(x.underlying ^^^ y.underlying))
  else .ub

/-- `not_equals`, src/common/tribool.hpp:64-71. -/
def notEquals (x y : Tribool) : Outcome Unit Tribool :=
  if inRange x.underlying && inRange y.underlying then
    if x = maybe ∨ y = maybe then .ok maybe else ofInt (x.underlying ^^^ y.underlying)
  else .ub

end Tribool

end Bms
