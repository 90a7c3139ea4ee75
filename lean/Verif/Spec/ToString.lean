/-!
# Specification: numbers that are written correctly in decimal
-/

namespace Bms.Spec

/-- The number has at most 64 bits, or no part of 19 digits (counted from the end) but the first begins with a
zero. -/
inductive WholeParts : Nat → Prop
  | small {x} : x < 2 ^ 64 → WholeParts x
  | big {x} : 2 ^ 64 ≤ x → 10 ^ 18 ≤ x % 10 ^ 19 → WholeParts (x / 10 ^ 19) → WholeParts x

end Bms.Spec
