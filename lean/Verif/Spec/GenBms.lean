import Verif.Model.GenBms
import Verif.Spec.Spelled

/-!
# Specification: programs that can be written as text
-/

namespace Bms.Spec

mutual

/-- The expression without node addresses and results of analysis: what is written in the source. -/
def plainE : AExpr → AExpr
  | .literal _ _ l => .literal 0 none l
  | .id _ _ x _ _ => .id 0 none x none false
  | .conversion _ _ e t => .conversion 0 none (plainE e) (plainT t)
  | .ite _ _ l c r => .ite 0 none (plainE l) (plainE c) (plainE r)
  | .binary _ _ op l r => .binary 0 none op (plainE l) (plainE r)
  | .prefix _ _ op e => .prefix 0 none op (plainE e)
  | .call _ _ st x _ args => .call 0 none st x none (plainEs args)

/-- Types. -/
def plainT : AType → AType
  | .base _ _ b => .base 0 none b
  | .uint _ _ _ w => .uint 0 none none (plainE w)

/-- Several expressions. -/
def plainEs : List AExpr → List AExpr
  | [] => []
  | e :: es => plainE e :: plainEs es

end

mutual

/-- Statements. -/
def plainS : AStmt → AStmt
  | .const_ _ _ x t e => .const_ 0 none x (t.map plainT) (plainE e)
  | .let_ _ _ x t e => .let_ 0 none x (t.map plainT) (e.map plainE)
  | .staticAssert _ _ e => .staticAssert 0 none (plainE e)
  | .ifThen _ _ c b => .ifThen 0 none (plainE c) (plainS b)
  | .ifElse _ _ c b e => .ifElse 0 none (plainE c) (plainS b) (plainS e)
  | .while_ _ _ c b => .while_ 0 none (plainE c) (plainS b)
  | .control _ _ c e => .control 0 none c (e.map plainE)
  | .assign _ _ x _ e => .assign 0 none x none (plainE e)
  | .block _ _ ss => .block 0 none (plainSs ss)
  | .call e => .call (plainE e)

/-- Several statements. -/
def plainSs : List AStmt → List AStmt
  | [] => []
  | s :: ss => plainS s :: plainSs ss

end

/-- Parameters. -/
def plainP (p : AParam) : AParam := ⟨0, p.name, plainT p.type⟩

/-- Functions. -/
def plainF (f : AFn) : AFn :=
  ⟨0, none, f.name, f.params.map plainP, plainT f.ret, f.requires_.map plainE, 0, plainSs f.body, [], false,
    none, .unanalyzed⟩

/-- Declarations. -/
def plainD : ADecl → ADecl
  | .const_ _ _ x t e => .const_ 0 none x (t.map plainT) (plainE e)
  | .staticAssert _ _ e => .staticAssert 0 none (plainE e)
  | .function f => .function (plainF f)

/-- The name is an identifier, and no keyword. -/
def IsName (x : List Char) : Prop := Lexeme .identifier x

/-- The operations with two operands. -/
def IsBinary (op : ExprType) : Prop :=
  op ∈ [.logical_and, .logical_or, .equals, .not_equals, .less_than, .greater_than, .less_or_equal,
    .greater_or_equal, .binary_plus, .binary_minus, .multiplication, .division, .remainder, .shift_left,
    .shift_right, .bitwise_and, .bitwise_or, .bitwise_xor]

/-- The operations with one operand. -/
def IsUnary (op : ExprType) : Prop := op ∈ [.unary_plus, .unary_minus, .logical_not, .bitwise_not]

/-- Not the result of an operation with two operands. -/
def NotBinary : AExpr → Prop
  | .binary .. => False
  | _ => True

mutual

/-- Expressions that the generator writes correctly: no strings; `!` is not used; and no expression with
two operands is converted, unless parentheses are written everywhere. -/
def PrintableE (always : Bool) : AExpr → Prop
  | .literal _ _ l => l ≠ none ∧ ∀ x, l = some (.integer x) → ∃ k v, Literal k x v
  | .id _ _ x _ _ => IsName x
  | .conversion _ _ e t => PrintableE always e ∧ PrintableT always t ∧ (always = true ∨ NotBinary e)
  | .ite _ _ l c r => PrintableE always l ∧ PrintableE always c ∧ PrintableE always r
  | .binary _ _ op l r => IsBinary op ∧ PrintableE always l ∧ PrintableE always r
  | .prefix _ _ op e => IsUnary op ∧ op ≠ .logical_not ∧ PrintableE always e
  | .call _ _ st x _ args => st = false ∧ IsName x ∧ PrintableEs always args

/-- Types. -/
def PrintableT (always : Bool) : AType → Prop
  | .base .. => True
  | .uint _ _ _ w => PrintableE always w

/-- Several expressions. -/
def PrintableEs (always : Bool) : List AExpr → Prop
  | [] => True
  | e :: es => PrintableE always e ∧ PrintableEs always es

end

/-- An optional part. -/
def IfAny {α : Type} (p : α → Prop) : Option α → Prop
  | none => True
  | some x => p x

def IsBlock : AStmt → Prop
  | .block .. => True
  | _ => False

def IsIf : AStmt → Prop
  | .ifThen .. | .ifElse .. => True
  | _ => False

mutual

/-- Statements that the generator writes correctly: `else` is only used in `else if`, and no function is
called by a statement. -/
def PrintableS (always : Bool) : AStmt → Prop
  | .const_ _ _ x t e => IsName x ∧ IfAny (PrintableT always) t ∧ PrintableE always e
  | .let_ _ _ x t e => IsName x ∧ IfAny (PrintableT always) t ∧ IfAny (PrintableE always) e ∧
      (t ≠ none ∨ e ≠ none)
  | .staticAssert _ _ e => PrintableE always e
  | .ifThen _ _ c b => PrintableE always c ∧ IsBlock b ∧ PrintableS always b
  | .ifElse _ _ c b e => PrintableE always c ∧ IsBlock b ∧ PrintableS always b ∧ IsIf e ∧ PrintableS always e
  | .while_ _ _ c b => PrintableE always c ∧ IsBlock b ∧ PrintableS always b
  | .control _ _ c e => IfAny (PrintableE always) e ∧ (c ≠ .return_ → e = none)
  | .assign _ _ x _ e => IsName x ∧ PrintableE always e
  | .block _ _ ss => PrintableSs always ss
  | .call _ => False

/-- Several statements. -/
def PrintableSs (always : Bool) : List AStmt → Prop
  | [] => True
  | s :: ss => PrintableS always s ∧ PrintableSs always ss

end

/-- Declarations that the generator writes correctly: a function has no `requires` clause. -/
def PrintableD (always : Bool) : ADecl → Prop
  | .const_ _ _ x t e => IsName x ∧ IfAny (PrintableT always) t ∧ PrintableE always e
  | .staticAssert _ _ e => PrintableE always e
  | .function f => IsName f.name ∧ (∀ p ∈ f.params, IsName p.name ∧ PrintableT always p.type) ∧
      PrintableT always f.ret ∧ f.requires_ = none ∧ PrintableSs always f.body

end Bms.Spec
