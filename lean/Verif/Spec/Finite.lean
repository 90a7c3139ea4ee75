import Verif.Spec.Analysis

/-!
# Specification: programs whose constant expressions call functions that end

Constant expressions are the initializers of constants, conditions of static assertions and
requires-clauses, and widths in types. Everything here is about a program after name lookup.
-/

namespace Bms.Spec

/-- The function that a call refers to, if it is not a builtin one. -/
def calledKey : Option Lookup → List Key
  | some (.node j) => [j]
  | _ => []

mutual

/-- The functions that an expression calls, including those in widths. -/
def callsE : AExpr → List Key
  | .literal .. => []
  | .id .. => []
  | .conversion _ _ e ty => callsE e ++ callsT ty
  | .ite _ _ l c r => callsE l ++ (callsE c ++ callsE r)
  | .binary _ _ _ l r => callsE l ++ callsE r
  | .prefix _ _ _ e => callsE e
  | .call _ _ _ _ ref args => calledKey ref ++ callsEs args

/-- The functions that the width of a type calls. -/
def callsT : AType → List Key
  | .base .. => []
  | .uint _ _ _ w => callsE w

/-- The functions that several expressions call. -/
def callsEs : List AExpr → List Key
  | [] => []
  | e :: es => callsE e ++ callsEs es

end

mutual

/-- The functions that widths in an expression call. -/
def widthCallsE : AExpr → List Key
  | .literal .. => []
  | .id .. => []
  | .conversion _ _ e ty => widthCallsE e ++ callsT ty
  | .ite _ _ l c r => widthCallsE l ++ (widthCallsE c ++ widthCallsE r)
  | .binary _ _ _ l r => widthCallsE l ++ widthCallsE r
  | .prefix _ _ _ e => widthCallsE e
  | .call _ _ _ _ _ args => widthCallsEs args

/-- The functions that widths in several expressions call. -/
def widthCallsEs : List AExpr → List Key
  | [] => []
  | e :: es => widthCallsE e ++ widthCallsEs es

end

/-- The functions that an optional child calls. -/
def callsO {α : Type} (f : α → List Key) : Option α → List Key
  | none => []
  | some x => f x

mutual

/-- The functions that a statement calls. -/
def callsS : AStmt → List Key
  | .const_ _ _ _ ty init => callsO callsT ty ++ callsE init
  | .let_ _ _ _ ty init => callsO callsT ty ++ callsO callsE init
  | .staticAssert _ _ e => callsE e
  | .ifThen _ _ c t => callsE c ++ callsS t
  | .ifElse _ _ c t e => callsE c ++ (callsS t ++ callsS e)
  | .while_ _ _ c b => callsE c ++ callsS b
  | .control _ _ _ e => callsO callsE e
  | .assign _ _ _ _ e => callsE e
  | .block _ _ ss => callsSs ss
  | .call e => callsE e

/-- The functions that several statements call. -/
def callsSs : List AStmt → List Key
  | [] => []
  | s :: ss => callsS s ++ callsSs ss

end

mutual

/-- The functions that constant expressions in a statement call. -/
def constCallsS : AStmt → List Key
  | .const_ _ _ _ ty init => callsO callsT ty ++ callsE init
  | .let_ _ _ _ ty init => callsO callsT ty ++ callsO widthCallsE init
  | .staticAssert _ _ e => callsE e
  | .ifThen _ _ c t => widthCallsE c ++ constCallsS t
  | .ifElse _ _ c t e => widthCallsE c ++ (constCallsS t ++ constCallsS e)
  | .while_ _ _ c b => widthCallsE c ++ constCallsS b
  | .control _ _ _ e => callsO widthCallsE e
  | .assign _ _ _ _ e => widthCallsE e
  | .block _ _ ss => constCallsSs ss
  | .call e => widthCallsE e

/-- The functions that constant expressions in several statements call. -/
def constCallsSs : List AStmt → List Key
  | [] => []
  | s :: ss => constCallsS s ++ constCallsSs ss

end

/-- The functions that constant expressions in a global declaration call. -/
def constCallsD : ADecl → List Key
  | .const_ _ _ _ ty init => callsO callsT ty ++ callsE init
  | .staticAssert _ _ e => callsE e
  | .function f => callsO callsE f.requires_ ++ constCallsSs f.body

mutual

/-- There is no loop in the statement. -/
def LoopFreeS : AStmt → Prop
  | .ifThen _ _ _ t => LoopFreeS t
  | .ifElse _ _ _ t e => LoopFreeS t ∧ LoopFreeS e
  | .while_ .. => False
  | .block _ _ ss => LoopFreeSs ss
  | _ => True

/-- There is no loop in the statements. -/
def LoopFreeSs : List AStmt → Prop
  | [] => True
  | s :: ss => LoopFreeS s ∧ LoopFreeSs ss

end

mutual

/-- Whoever gets to the statement gets to a `return` in it. -/
def ReturnsS : AStmt → Prop
  | .control _ _ c _ => c = .return_
  | .ifElse _ _ _ t e => ReturnsS t ∧ ReturnsS e
  | .block _ _ ss => ReturnsSs ss
  | _ => False

/-- One of the statements returns. -/
def ReturnsSs : List AStmt → Prop
  | [] => False
  | s :: ss => ReturnsS s ∨ ReturnsSs ss

end

/-- The type is `Void`. -/
def VoidT : AType → Prop
  | .base _ _ .void => True
  | _ => False

/-- Constant expressions only call functions of a set `L` of functions that are not generic, have no loops,
return on every path, or have no result, and call nothing outside of `L`. -/
structure CallsEnding (ds : List ADecl) (L : Key → Prop) : Prop where
  called : ∀ d ∈ ds, ∀ j ∈ constCallsD d, L j
  plain : ∀ f, .function f ∈ ds → L f.k → f.generic = false
  loops : ∀ f, .function f ∈ ds → L f.k → LoopFreeSs f.body
  returns : ∀ f, .function f ∈ ds → L f.k → VoidT f.ret ∨ ReturnsSs f.body
  calls : ∀ f, .function f ∈ ds → L f.k → ∀ j ∈ callsSs f.body, L j

end Bms.Spec
