import Verif.Spec.Analysis

/-!
# Specification: programs that analysis deals with in bounded depth

Constant expressions are the initializers of constants, conditions of static assertions and
requires-clauses, and widths in types.
-/

namespace Bms.Spec

mutual

/-- There are no calls in the widths of types in the expression. Other calls are allowed. -/
def QuietE : AExpr → Prop
  | .literal .. => True
  | .id .. => True
  | .conversion _ _ e ty => QuietE e ∧ CallFreeT ty
  | .ite _ _ l c r => QuietE l ∧ QuietE c ∧ QuietE r
  | .binary _ _ _ l r => QuietE l ∧ QuietE r
  | .prefix _ _ _ e => QuietE e
  | .call _ _ _ _ _ args => QuietEs args

/-- The same for several expressions. -/
def QuietEs : List AExpr → Prop
  | [] => True
  | e :: es => QuietE e ∧ QuietEs es

end

mutual

/-- There are no calls in the constant expressions of the statement. -/
def QuietS : AStmt → Prop
  | .const_ _ _ _ ty init => (∀ t ∈ ty, CallFreeT t) ∧ CallFree init
  | .let_ _ _ _ ty init => (∀ t ∈ ty, CallFreeT t) ∧ ∀ e ∈ init, QuietE e
  | .staticAssert _ _ e => CallFree e
  | .ifThen _ _ c t => QuietE c ∧ QuietS t
  | .ifElse _ _ c t e => QuietE c ∧ QuietS t ∧ QuietS e
  | .while_ _ _ c b => QuietE c ∧ QuietS b
  | .control _ _ _ e => ∀ x ∈ e, QuietE x
  | .assign _ _ _ _ e => QuietE e
  | .block _ _ ss => QuietSs ss
  | .call e => QuietE e

/-- The same for several statements. -/
def QuietSs : List AStmt → Prop
  | [] => True
  | s :: ss => QuietS s ∧ QuietSs ss

end

/-- There are no calls in the constant expressions of the function. -/
structure QuietF (f : AFn) : Prop where
  params : ∀ p ∈ f.params, CallFreeT p.type
  ret : CallFreeT f.ret
  reqs : ∀ e ∈ f.requires_, CallFree e
  body : QuietSs f.body

/-- There are no calls in the constant expressions of the declaration. -/
def QuietD : ADecl → Prop
  | .const_ _ _ _ ty init => (∀ t ∈ ty, CallFreeT t) ∧ CallFree init
  | .staticAssert _ _ e => CallFree e
  | .function f => QuietF f

end Bms.Spec
