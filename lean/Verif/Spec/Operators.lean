import Verif.Model.ExprType
import Verif.Spec.Values

/-!
# Specification: operators in terms of integer arithmetic
-/

namespace Bms.Spec

/-- `Operands t l r`: `l` and `r` are well-formed integer operands whose common type is `t`, and
both of their values belong to `t`. Either both have type `t`, or `t` is a `Uint` type and one
of them is an `Int` whose value the `Uint` type can hold. -/
inductive Operands : CType → CVal → CVal → Prop
  | int {x y : Int} (hx : InType .int x) (hy : InType .int y) :
      Operands .int ⟨.int, x⟩ ⟨.int, y⟩
  | uint {w : Nat} {x y : Int} (hw : 0 < w ∧ w < 128)
      (hx : InType (.uint w) x) (hy : InType (.uint w) y) :
      Operands (.uint w) ⟨.uint w, x⟩ ⟨.uint w, y⟩
  | uintInt {w : Nat} {x y : Int} (hw : 0 < w ∧ w < 128)
      (hx : InType (.uint w) x) (hy : InType (.uint w) y) :
      Operands (.uint w) ⟨.uint w, x⟩ ⟨.int, y⟩
  | intUint {w : Nat} {x y : Int} (hw : 0 < w ∧ w < 128)
      (hx : InType (.uint w) x) (hy : InType (.uint w) y) :
      Operands (.uint w) ⟨.int, x⟩ ⟨.uint w, y⟩

/-- The exact result of `+`, `-`, `*`. -/
def exactArith : ExprType → Int → Int → Option Int
  | .binary_plus, x, y => some (x + y)
  | .binary_minus, x, y => some (x - y)
  | .multiplication, x, y => some (x * y)
  | _, _, _ => none

/-- The exact truth value of a comparison. -/
def exactCompare : ExprType → Int → Int → Option Bool
  | .equals, x, y => some (x = y)
  | .not_equals, x, y => some (x ≠ y)
  | .less_than, x, y => some (x < y)
  | .greater_than, x, y => some (x > y)
  | .less_or_equal, x, y => some (x ≤ y)
  | .greater_or_equal, x, y => some (x ≥ y)
  | _, _, _ => none

/-- The Boolean function that a bitwise operator applies to each pair of bits. -/
def bitFun : ExprType → Option (Bool → Bool → Bool)
  | .bitwise_and => some (· && ·)
  | .bitwise_or => some (· || ·)
  | .bitwise_xor => some (fun a b => a != b)
  | _ => none

end Bms.Spec
