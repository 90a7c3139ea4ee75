import Verif.Spec.Bmd

/-!
# Specification: places in a document
-/

namespace Bms.Bmd

/-- `p` is the position of a character of the text, which is not a line feed if `inLine` is set. -/
def CharAt (source : List Char) (inLine : Bool) (p : Position) : Prop :=
  ∃ t c u, source = t ++ c :: u ∧ p = after ⟨0, 0, 0⟩ t ∧ (inLine = true → c ≠ '\n')

end Bms.Bmd
