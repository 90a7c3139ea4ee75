import Verif.Model.Values

/-!
# Specification: well-formed values

Independent of the evaluator: which integers belong to which type.
-/

namespace Bms.Spec

/-- The integers that a type can hold: `Void` only 0, `Bool` 0 and 1, `Int` the 128-bit signed
range, `Uint(w)` the range `[0, 2^w)`. -/
def InType (t : CType) (x : Int) : Prop :=
  match t with
  | .void => x = 0
  | .bool => x = 0 ∨ x = 1
  | .int => -2 ^ 127 ≤ x ∧ x < 2 ^ 127
  | .uint w => 0 ≤ x ∧ x < 2 ^ w

/-- A well-formed value: its type can exist and its integer belongs to the type. -/
def WF (v : CVal) : Prop := v.type.WF ∧ InType v.type v.int

instance (t : CType) (x : Int) : Decidable (InType t x) := by
  unfold InType; cases t <;> infer_instance

instance (v : CVal) : Decidable (WF v) := inferInstanceAs (Decidable (_ ∧ _))

/-- A possibly unknown value describes the concrete value `c`: same type, and the same integer
if the integer is known. -/
def Describes (v : Value) (c : CVal) : Prop :=
  v.type = c.type ∧ ∀ x, v.val = some x → x = c.int

end Bms.Spec
