import Verif.Model.NameLookup

/-!
# Specification: scopes

Which declarations are visible at which place of a program, as a list, with no reference to symbol
tables. `items` lists all places of a program where a name is declared or used, in the order of the
text (declarations of global names first), each with what is visible there.
-/

namespace Bms.Spec

/-- The visible names, with what they stand for. -/
abbrev Visible := List (Name × Lookup)

/-- A place where a name is declared or used. -/
inductive Item where
  /-- A name is used. `ref` is what it was bound to. `code` is the error if it is not visible, and
  `fatal` says that lookup throws instead of reporting it. -/
  | use (code : ACode) (k : Key) (name : Name) (ref : Option Lookup) (visible : Visible)
      (fatal : Bool)
  /-- A name is declared. `code` is the error if it is visible already. -/
  | define (code : ACode) (k : Key) (name : Name) (visible : Visible)

/-- A name can be used where it is visible and declared where it is not. -/
def Item.Good : Item → Prop
  | .use _ _ name _ visible _ => name ∈ visible.map Prod.fst
  | .define _ _ name visible => name ∉ visible.map Prod.fst

instance : DecidablePred Item.Good := fun i => by
  cases i <;> simp only [Item.Good] <;> infer_instance

/-- The used name is bound to the only visible declaration of it. -/
def Item.Bound : Item → Prop
  | .use _ _ name ref visible _ =>
    ∃ r, ref = some r ∧ (name, r) ∈ visible ∧ ∀ r', (name, r') ∈ visible → r' = r
  | .define _ _ name visible => name ∉ visible.map Prod.fst

/-- What lookup does if the item is not good. -/
def Item.fault : Item → Outcome AErr Unit
  | .use code k _ _ _ fatal => if fatal then .throws else .err ⟨code, k⟩
  | .define code k _ _ => .err ⟨code, k⟩

/-- What lookup does for a program with these items: the first item that is not good counts. -/
def verdict : List Item → Outcome AErr Unit
  | [] => .ok ()
  | i :: is => if i.Good then verdict is else i.fault

/-- In the width of a parameter, calls of functions that are not visible are fatal. -/
def Item.inWidth : Item → Item
  | .use code k name ref visible _ =>
    .use code k name ref visible (decide (code = .call_to_undefined_function))
  | i => i

mutual

/-- Items of an expression. -/
def itemsE (ρ : Visible) : AExpr → List Item
  | .literal .. => []
  | .id k _ name ref _ => [.use .reference_to_undefined_variable k name ref ρ false]
  | .conversion _ _ e to => itemsE ρ e ++ itemsT ρ to
  | .ite _ _ l c r => itemsE ρ l ++ (itemsE ρ c ++ itemsE ρ r)
  | .binary _ _ _ l r => itemsE ρ l ++ itemsE ρ r
  | .prefix _ _ _ e => itemsE ρ e
  | .call k _ _ name ref args =>
    .use .call_to_undefined_function k name ref ρ false :: itemsEs ρ args

/-- Items of a type. -/
def itemsT (ρ : Visible) : AType → List Item
  | .base .. => []
  | .uint _ _ _ w => itemsE ρ w

/-- Items of several expressions. -/
def itemsEs (ρ : Visible) : List AExpr → List Item
  | [] => []
  | e :: es => itemsE ρ e ++ itemsEs ρ es

end

/-- Items of an optional part. -/
def itemsO {α : Type} (f : α → List Item) : Option α → List Item
  | none => []
  | some x => f x

mutual

/-- What is visible after a statement: what a block declares is visible in this block only. -/
def after (ρ : Visible) : AStmt → Visible
  | .const_ k _ name _ _ => (name, .node k) :: ρ
  | .let_ k _ name _ _ => (name, .node k) :: ρ
  | .ifThen _ _ _ t => after ρ t
  | .ifElse _ _ _ t e => after (after ρ t) e
  | .while_ _ _ _ b => after ρ b
  | _ => ρ

/-- Items of a statement. A declared name is visible in its own initializer. -/
def itemsS (ρ : Visible) : AStmt → List Item
  | .const_ k _ name ty init =>
    .define .failed_to_define_variable k name ρ ::
      (itemsO (itemsT ((name, .node k) :: ρ)) ty ++ itemsE ((name, .node k) :: ρ) init)
  | .let_ k _ name ty init =>
    .define .failed_to_define_variable k name ρ ::
      (itemsO (itemsT ((name, .node k) :: ρ)) ty ++ itemsO (itemsE ((name, .node k) :: ρ)) init)
  | .staticAssert _ _ e => itemsE ρ e
  | .ifThen _ _ c t => itemsE ρ c ++ itemsS ρ t
  | .ifElse _ _ c t e => itemsE ρ c ++ (itemsS ρ t ++ itemsS (after ρ t) e)
  | .while_ _ _ c b => itemsE ρ c ++ itemsS ρ b
  | .control _ _ _ e => itemsO (itemsE ρ) e
  | .assign k _ name ref e =>
    .use .assignment_of_undefined_variable k name ref ρ false :: itemsE ρ e
  | .block _ _ ss => itemsSs ρ ss
  | .call e => itemsE ρ e

/-- Items of several statements. -/
def itemsSs (ρ : Visible) : List AStmt → List Item
  | [] => []
  | s :: ss => itemsS ρ s ++ itemsSs (after ρ s) ss

end

/-- The name that the type of a parameter declares: a width that is a name which is not visible. -/
def widthName (ρ : Visible) : AType → Option (Name × Key)
  | .uint _ _ _ (.id k _ name _ _) => if name ∈ ρ.map Prod.fst then none else some (name, k)
  | _ => none

/-- What is visible after a parameter. -/
def afterParam (ρ : Visible) (p : AParam) : Visible :=
  match widthName ((p.name, .param p.k) :: ρ) p.type with
  | some (name, k) => (name, .node k) :: (p.name, .param p.k) :: ρ
  | none => (p.name, .param p.k) :: ρ

/-- Items of a parameter. -/
def itemsParam (ρ : Visible) (p : AParam) : List Item :=
  .define .failed_to_define_parameter p.k p.name ρ ::
    match widthName ((p.name, .param p.k) :: ρ) p.type with
    | some _ => []
    | none => (itemsT ((p.name, .param p.k) :: ρ) p.type).map Item.inWidth

/-- What is visible after the parameters. -/
def afterParams : Visible → List AParam → Visible
  | ρ, [] => ρ
  | ρ, p :: ps => afterParams (afterParam ρ p) ps

/-- Items of the parameters. -/
def itemsParams : Visible → List AParam → List Item
  | _, [] => []
  | ρ, p :: ps => itemsParam ρ p ++ itemsParams (afterParam ρ p) ps

/-- One of the parameters has a width that is deduced. -/
def isGeneric : Visible → List AParam → Bool
  | _, [] => false
  | ρ, p :: ps =>
    (widthName ((p.name, .param p.k) :: ρ) p.type).isSome || isGeneric (afterParam ρ p) ps

/-- Items of a function. -/
def itemsF (ρ : Visible) (f : AFn) : List Item :=
  itemsParams ρ f.params ++ (itemsT (afterParams ρ f.params) f.ret ++
    (itemsO (itemsE (afterParams ρ f.params)) f.requires_ ++
      itemsSs (afterParams ρ f.params) f.body))

/-- What a global declaration makes visible. -/
def afterGlobal (ρ : Visible) : ADecl → Visible
  | .const_ k _ name _ _ => (name, .node k) :: ρ
  | .function f => (f.name, .node f.k) :: ρ
  | .staticAssert .. => ρ

/-- What is visible everywhere: the declared global names. -/
def globals : Visible → List ADecl → Visible
  | ρ, [] => ρ
  | ρ, d :: ds => globals (afterGlobal ρ d) ds

/-- The declarations of global names. -/
def itemsGlobal : Visible → List ADecl → List Item
  | _, [] => []
  | ρ, .const_ k cv name ty init :: ds =>
    .define .failed_to_define_global_const k name ρ ::
      itemsGlobal (afterGlobal ρ (.const_ k cv name ty init)) ds
  | ρ, .function f :: ds =>
    .define .failed_to_define_function f.k f.name ρ :: itemsGlobal (afterGlobal ρ (.function f)) ds
  | ρ, .staticAssert .. :: ds => itemsGlobal ρ ds

/-- Items inside of a global declaration. -/
def itemsD (ρ : Visible) : ADecl → List Item
  | .const_ _ _ _ ty init => itemsO (itemsT ρ) ty ++ itemsE ρ init
  | .staticAssert _ _ e => itemsE ρ e
  | .function f => itemsF ρ f

/-- Items inside of global declarations. -/
def itemsDs (ρ : Visible) : List ADecl → List Item
  | [] => []
  | d :: ds => itemsD ρ d ++ itemsDs ρ ds

/-- What is visible before any declaration. -/
def predefined : Visible := [("assert".toList, .builtin .assert)]

/-- Items of a program. -/
def items (ds : List ADecl) : List Item :=
  itemsGlobal predefined ds ++ itemsDs (globals predefined ds) ds

/-! ## The tree without bindings -/

mutual

/-- The expression without bindings. -/
def stripE : AExpr → AExpr
  | .literal k cv l => .literal k cv l
  | .id k cv name _ _ => .id k cv name none false
  | .conversion k cv e to => .conversion k cv (stripE e) (stripT to)
  | .ite k cv l c r => .ite k cv (stripE l) (stripE c) (stripE r)
  | .binary k cv op l r => .binary k cv op (stripE l) (stripE r)
  | .prefix k cv op e => .prefix k cv op (stripE e)
  | .call k cv stmt name _ args => .call k cv stmt name none (stripEs args)

/-- The type without bindings. -/
def stripT : AType → AType
  | .base k cv b => .base k cv b
  | .uint k cv c w => .uint k cv c (stripE w)

/-- Several expressions without bindings. -/
def stripEs : List AExpr → List AExpr
  | [] => []
  | e :: es => stripE e :: stripEs es

end

mutual

/-- The statement without bindings. -/
def stripS : AStmt → AStmt
  | .const_ k cv name ty init => .const_ k cv name (ty.map stripT) (stripE init)
  | .let_ k cv name ty init => .let_ k cv name (ty.map stripT) (init.map stripE)
  | .staticAssert k cv e => .staticAssert k cv (stripE e)
  | .ifThen k cv c t => .ifThen k cv (stripE c) (stripS t)
  | .ifElse k cv c t e => .ifElse k cv (stripE c) (stripS t) (stripS e)
  | .while_ k cv c b => .while_ k cv (stripE c) (stripS b)
  | .control k cv c e => .control k cv c (e.map stripE)
  | .assign k cv name _ e => .assign k cv name none (stripE e)
  | .block k cv ss => .block k cv (stripSs ss)
  | .call e => .call (stripE e)

/-- Several statements without bindings. -/
def stripSs : List AStmt → List AStmt
  | [] => []
  | s :: ss => stripS s :: stripSs ss

end

/-- The parameter without bindings. -/
def stripParam (p : AParam) : AParam := { p with type := stripT p.type }

/-- The function without bindings. -/
def stripF (f : AFn) : AFn :=
  { f with
    params := f.params.map stripParam
    ret := stripT f.ret
    requires_ := f.requires_.map stripE
    body := stripSs f.body
    generic := false }

/-- The declaration without bindings. -/
def stripD : ADecl → ADecl
  | .const_ k cv name ty init => .const_ k cv name (ty.map stripT) (stripE init)
  | .staticAssert k cv e => .staticAssert k cv (stripE e)
  | .function f => .function (stripF f)

end Bms.Spec
