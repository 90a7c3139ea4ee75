import Verif.Spec.GenBms

/-!
# Specification: shapes of statements
-/

namespace Bms.Spec

mutual

/-- Bodies are blocks, and `else` is followed by a block or by `if`. -/
def BlocksS : AStmt → Prop
  | .ifThen _ _ _ b => IsBlock b ∧ BlocksS b
  | .ifElse _ _ _ b e => IsBlock b ∧ BlocksS b ∧ (IsIf e ∨ IsBlock e) ∧ BlocksS e
  | .while_ _ _ _ b => IsBlock b ∧ BlocksS b
  | .block _ _ ss => BlocksSs ss
  | _ => True

/-- Several statements. -/
def BlocksSs : List AStmt → Prop
  | [] => True
  | s :: ss => BlocksS s ∧ BlocksSs ss

end

/-- Declarations. -/
def BlocksD : ADecl → Prop
  | .function f => BlocksSs f.body
  | _ => True

end Bms.Spec
