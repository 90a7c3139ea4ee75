import Verif.Model.Codegen

/-!
# Specification: closed code, and where `break` and `continue` may stand
-/

namespace Bms.Spec

/-- The offset of a relative jump. -/
def jumpOffset : Instr → Option Int
  | .jump o => some o
  | .jumpIf o _ => some o
  | _ => none

/-- Every relative jump in the code leads to an instruction of the code, or directly behind it. (A
jump at position `i` with offset `o` leads to `i + o + 1`.) -/
def JumpsInside (code : List Instr) : Prop :=
  ∀ (i : Nat) (ins : Instr) (o : Int), code[i]? = some ins → jumpOffset ins = some o →
    0 ≤ i + o + 1 ∧ i + o + 1 ≤ code.length

/-- No placeholder for `break` or `continue` is left. -/
def NoPlaceholder (code : List Instr) : Prop := ∀ ins ∈ code, ins ≠ .break_ ∧ ins ≠ .continue_

mutual

/-- `break` and `continue` occur in loops only (`inLoop`: the statement is part of a loop). -/
def LoopControl (inLoop : Bool) : Stmt → Prop
  | .ifThen _ t => LoopControl inLoop t
  | .ifElse _ t e => LoopControl inLoop t ∧ LoopControl inLoop e
  | .while_ _ b => LoopControl true b
  | .control c _ _ => c = .return_ ∨ inLoop = true
  | .block ss => LoopControls inLoop ss
  | _ => True

/-- All statements of a block. -/
def LoopControls (inLoop : Bool) : List Stmt → Prop
  | [] => True
  | s :: ss => LoopControl inLoop s ∧ LoopControls inLoop ss

end

end Bms.Spec
