import Verif.Model.Analyze
import Verif.Spec.Loaded

/-!
# Specification: what analysis starts from and what it establishes
-/

namespace Bms.Spec

/-! ## Trees before analysis -/

mutual

/-- No node of the expression has been analyzed, and calls in it are not marked as statements. -/
def RawE : AExpr → Prop
  | .literal _ cv _ => cv = none
  | .id _ cv _ _ _ => cv = none
  | .conversion _ cv e ty => cv = none ∧ RawE e ∧ RawT ty
  | .ite _ cv l c r => cv = none ∧ RawE l ∧ RawE c ∧ RawE r
  | .binary _ cv _ l r => cv = none ∧ RawE l ∧ RawE r
  | .prefix _ cv _ e => cv = none ∧ RawE e
  | .call _ cv st _ _ args => cv = none ∧ st = false ∧ RawEs args

/-- No node of the type has been analyzed. -/
def RawT : AType → Prop
  | .base _ cv _ => cv = none
  | .uint _ cv concrete w => cv = none ∧ concrete = none ∧ RawE w

/-- The same for several expressions. -/
def RawEs : List AExpr → Prop
  | [] => True
  | e :: es => RawE e ∧ RawEs es

end

/-- A call that is marked as a statement and has not been analyzed. -/
def RawCall : AExpr → Prop
  | .call _ cv st _ _ args => cv = none ∧ st = true ∧ RawEs args
  | _ => False

mutual

/-- No node of the statement has been analyzed; `break` and `continue` have no operand. -/
def RawS : AStmt → Prop
  | .const_ _ cv _ ty init => cv = none ∧ (∀ t ∈ ty, RawT t) ∧ RawE init
  | .let_ _ cv _ ty init => cv = none ∧ (∀ t ∈ ty, RawT t) ∧ ∀ e ∈ init, RawE e
  | .staticAssert _ cv e => cv = none ∧ RawE e
  | .ifThen _ cv c t => cv = none ∧ RawE c ∧ RawS t
  | .ifElse _ cv c t e => cv = none ∧ RawE c ∧ RawS t ∧ RawS e
  | .while_ _ cv c b => cv = none ∧ RawE c ∧ RawS b
  | .control _ cv c e => cv = none ∧ (c ≠ .return_ → e = none) ∧ ∀ x ∈ e, RawE x
  | .assign _ cv _ _ e => cv = none ∧ RawE e
  | .block _ cv ss => cv = none ∧ RawSs ss
  | .call e => RawCall e

/-- The same for several statements. -/
def RawSs : List AStmt → Prop
  | [] => True
  | s :: ss => RawS s ∧ RawSs ss

end

mutual

/-- Variables and constants that a statement declares. -/
def declsS : AStmt → List (Key × DeclKind)
  | .const_ k .. => [(k, .const_)]
  | .let_ k .. => [(k, .let_)]
  | .ifThen _ _ _ t => declsS t
  | .ifElse _ _ _ t e => declsS t ++ declsS e
  | .while_ _ _ _ b => declsS b
  | .block _ _ ss => declsSs ss
  | _ => []

/-- Variables and constants that several statements declare. -/
def declsSs : List AStmt → List (Key × DeclKind)
  | [] => []
  | s :: ss => declsS s ++ declsSs ss

end

mutual

/-- There are no calls in the expression. -/
def CallFree : AExpr → Prop
  | .literal .. => True
  | .id .. => True
  | .conversion _ _ e ty => CallFree e ∧ CallFreeT ty
  | .ite _ _ l c r => CallFree l ∧ CallFree c ∧ CallFree r
  | .binary _ _ _ l r => CallFree l ∧ CallFree r
  | .prefix _ _ _ e => CallFree e
  | .call .. => False

/-- There are no calls in the type. -/
def CallFreeT : AType → Prop
  | .base .. => True
  | .uint _ _ _ w => CallFree w

end

/-- A function before analysis. There are no calls in the types of parameters and result: analysis of
such calls need not end. -/
structure RawFn (f : AFn) : Prop where
  params : ∀ p ∈ f.params, RawT p.type ∧ CallFreeT p.type
  ret : RawT f.ret ∧ CallFreeT f.ret
  reqs : ∀ e ∈ f.requires_, RawE e
  body : RawSs f.body
  level : f.level = .unanalyzed
  cv : f.cv = none
  instances : f.instances = []

/-- A global declaration before analysis. -/
def RawD : ADecl → Prop
  | .const_ _ cv _ ty init => cv = none ∧ (∀ t ∈ ty, RawT t) ∧ RawE init
  | .staticAssert _ cv e => cv = none ∧ RawE e
  | .function f => RawFn f

/-- The keys of all nodes and parameters of a global declaration. -/
def nodeKeys : ADecl → List Key
  | .const_ k _ _ ty init => k :: (Inst.keysO Inst.keysT ty ++ Inst.keysE init)
  | .staticAssert k _ e => k :: Inst.keysE e
  | .function f => Inst.keys f ++ f.params.map AParam.k

/-- A program before analysis: nothing is analyzed, and all nodes have different keys, all smaller than
`next` and different from the key that the code generator uses for results. -/
structure RawProgram (ds : List ADecl) (next : Nat) : Prop where
  raw : ∀ d ∈ ds, RawD d
  nodup : (ds.flatMap nodeKeys).Nodup
  keys : ∀ x ∈ ds.flatMap nodeKeys, x < next ∧ x ≠ sentinelKey

/-! ## What is known about declarations -/

/-- The value of a constant or width. -/
def declConst : Decl → Option CVal
  | ⟨.const_, some v⟩ | ⟨.width, some v⟩ => v.val.map fun x => ⟨v.type, x⟩
  | _ => none

/-- The type of a variable or parameter, or of a constant without known value. -/
def declVar : Decl → Option CType
  | ⟨.let_, some v⟩ | ⟨.param, some v⟩ => some v.type
  | ⟨.const_, some v⟩ | ⟨.width, some v⟩ => if v.val.isNone then some v.type else none
  | _ => none

/-- The type that a type node stands for, after its analysis. -/
def typeOf (ty : AType) : CType := (ty.cv.map Value.type).getD .void

/-- The parameter and result types of a function. -/
def signature (f : AFn) : List CType × CType := (f.params.map fun p => typeOf p.type, typeOf f.ret)

/-- What surrounds expressions: all declarations that have been analyzed, and all functions with
analysis level `min` or more. -/
def ctxOf (min : Level) (s : ASt) : Ctx where
  consts k := (s.decl k).bind declConst
  vars k := (s.decl k).bind declVar
  fns k := (s.fns k).bind fun f =>
    if f.generic = false ∧ min.rank ≤ f.level.rank then some (signature f) else none

/-! ## What analysis may change -/

mutual

/-- The same expression with other values, where calls may refer to something else, as `R` says. -/
inductive SameE (R : Lookup → Lookup → Prop) : AExpr → AExpr → Prop
  | literal {k cv cv' l} : SameE R (.literal k cv l) (.literal k cv' l)
  | id {k cv cv' name ref g} : SameE R (.id k cv name ref g) (.id k cv' name ref g)
  | conversion {k cv cv' e e' t t'} : SameE R e e' → SameT R t t' →
      SameE R (.conversion k cv e t) (.conversion k cv' e' t')
  | ite {k cv cv' l l' c c' r r'} : SameE R l l' → SameE R c c' → SameE R r r' →
      SameE R (.ite k cv l c r) (.ite k cv' l' c' r')
  | binary {k cv cv' op l l' r r'} : SameE R l l' → SameE R r r' →
      SameE R (.binary k cv op l r) (.binary k cv' op l' r')
  | pre {k cv cv' op e e'} : SameE R e e' → SameE R (.prefix k cv op e) (.prefix k cv' op e')
  | call {k cv cv' st name r r' args args'} : R r r' → SameEs R args args' →
      SameE R (.call k cv st name (some r) args) (.call k cv' st name (some r') args')
  | callNone {k cv cv' st name args args'} : SameEs R args args' →
      SameE R (.call k cv st name none args) (.call k cv' st name none args')

/-- The same type, which may have got a width. -/
inductive SameT (R : Lookup → Lookup → Prop) : AType → AType → Prop
  | base {k cv cv' b} : SameT R (.base k cv b) (.base k cv' b)
  | uint {k cv cv' c c' w w'} : SameE R w w' → SameT R (.uint k cv c w) (.uint k cv' c' w')

/-- The same for several expressions. -/
inductive SameEs (R : Lookup → Lookup → Prop) : List AExpr → List AExpr → Prop
  | nil : SameEs R [] []
  | cons {e e' es es'} : SameE R e e' → SameEs R es es' → SameEs R (e :: es) (e' :: es')

end

/-- The same for an optional part. -/
inductive SameO {α : Type} (S : α → α → Prop) : Option α → Option α → Prop
  | none : SameO S none none
  | some {a a'} : S a a' → SameO S (some a) (some a')

mutual

/-- The same statement with other values. -/
inductive SameS (R : Lookup → Lookup → Prop) : AStmt → AStmt → Prop
  | const_ {k cv cv' name t t' e e'} : SameO (SameT R) t t' → SameE R e e' →
      SameS R (.const_ k cv name t e) (.const_ k cv' name t' e')
  | let_ {k cv cv' name t t' e e'} : SameO (SameT R) t t' → SameO (SameE R) e e' →
      SameS R (.let_ k cv name t e) (.let_ k cv' name t' e')
  | staticAssert {k cv cv' e e'} : SameE R e e' →
      SameS R (.staticAssert k cv e) (.staticAssert k cv' e')
  | ifThen {k cv cv' c c' t t'} : SameE R c c' → SameS R t t' →
      SameS R (.ifThen k cv c t) (.ifThen k cv' c' t')
  | ifElse {k cv cv' c c' t t' e e'} : SameE R c c' → SameS R t t' → SameS R e e' →
      SameS R (.ifElse k cv c t e) (.ifElse k cv' c' t' e')
  | while_ {k cv cv' c c' b b'} : SameE R c c' → SameS R b b' →
      SameS R (.while_ k cv c b) (.while_ k cv' c' b')
  | control {k cv cv' c e e'} : SameO (SameE R) e e' →
      SameS R (.control k cv c e) (.control k cv' c e')
  | assign {k cv cv' name ref e e'} : SameE R e e' →
      SameS R (.assign k cv name ref e) (.assign k cv' name ref e')
  | block {k cv cv' ss ss'} : SameSs R ss ss' → SameS R (.block k cv ss) (.block k cv' ss')
  | call {e e'} : SameE R e e' → SameS R (.call e) (.call e')

/-- The same for several statements. -/
inductive SameSs (R : Lookup → Lookup → Prop) : List AStmt → List AStmt → Prop
  | nil : SameSs R [] []
  | cons {s s' ss ss'} : SameS R s s' → SameSs R ss ss' → SameSs R (s :: ss) (s' :: ss')

end

/-- The same parameter. -/
def SameP (R : Lookup → Lookup → Prop) (p p' : AParam) : Prop :=
  p'.k = p.k ∧ p'.name = p.name ∧ SameT R p.type p'.type

/-- The same function with other values and further instances. -/
structure SameF (R : Lookup → Lookup → Prop) (f f' : AFn) : Prop where
  k : f'.k = f.k
  name : f'.name = f.name
  params : List.Forall₂ (SameP R) f.params f'.params
  ret : SameT R f.ret f'.ret
  reqs : SameO (SameE R) f.requires_ f'.requires_
  bodyKey : f'.bodyKey = f.bodyKey
  body : SameSs R f.body f'.body
  generic : f'.generic = f.generic
  instances : ∃ l, f'.instances = f.instances ++ l

/-- A reference to a generic function may become a reference to an instance of it. -/
def Redirect (s : ASt) (r r' : Lookup) : Prop :=
  r' = r ∨ ∃ j f i, r = .node j ∧ s.fns j = some f ∧ f.generic = true ∧ i ∈ f.instances ∧ r' = .node i.key

/-! ## What can be called in constant expressions -/

/-- The function as a part of a program. -/
def fnDef (f : AFn) : FnDef :=
  ⟨f.params.map fun p => (p.k, typeOf p.type), typeOf f.ret, eraseStmts f.body⟩

/-- The program so far: functions that are analyzed for constant expressions, and constants. -/
def progOf (s : ASt) : Prog where
  fns k := (s.fns k).bind fun f =>
    if f.generic = false ∧ f.level = .forConst then some (fnDef f) else none
  consts k := (s.decl k).bind declConst

/-- The addresses of these functions. -/
def addrOf (s : ASt) : Key → Option Nat := fun k => (s.fns k).bind fun f =>
  if f.generic = false ∧ f.level = .forConst then f.address else none

/-! ## Values -/

/-- Without any variables, the expression has this value in the program: calls in it end, however much
more fuel than needed they have, and always give the same result. -/
def HasValue (P : Prog) (e : AExpr) (v : CVal) : Prop :=
  ∃ n, ∀ m, n ≤ m → evalE (P.meaning (P.callN m)) e.erase Frame.empty = .ok v

mutual

/-- Widths of all types in the expression are the values of their width expressions. -/
def WidthsE (P : Prog) : AExpr → Prop
  | .literal .. => True
  | .id .. => True
  | .conversion _ _ e ty => WidthsE P e ∧ WidthsT P ty
  | .ite _ _ l c r => WidthsE P l ∧ WidthsE P c ∧ WidthsE P r
  | .binary _ _ _ l r => WidthsE P l ∧ WidthsE P r
  | .prefix _ _ _ e => WidthsE P e
  | .call _ _ _ _ _ args => WidthsEs P args

/-- The width of the type is the value of its width expression. The width expression of a parameter of
a generic function is the name of the width: in an instance, it is not evaluated but has a value. -/
def WidthsT (P : Prog) : AType → Prop
  | .base .. => True
  | .uint _ _ c w => WidthsE P w ∧ ∃ v : CVal, v.type.isInteger = true ∧ c = some v.int.toNat ∧ 0 ≤ v.int ∧
      (HasValue P w v ∨ ∃ k name ref, w = .id k (some (Value.known v)) name ref true)

/-- The same for several expressions. -/
def WidthsEs (P : Prog) : List AExpr → Prop
  | [] => True
  | e :: es => WidthsE P e ∧ WidthsEs P es

end

/-- The value of a constant is that of its initializer, converted to the type of the constant if that
is given. The value is known unless the type is given. -/
def ConstIs (P : Prog) (cv : Option Value) (ty : Option AType) (init : AExpr) : Prop :=
  match ty with
  | none => ∃ v, cv = some (Value.known v) ∧ HasValue P init v
  | some ty => ∃ w, cv = some w ∧ w.type = typeOf ty ∧ ∀ x, w.val = some x →
      ∃ v, HasValue P init v ∧ evalConversion v (typeOf ty) = .ok ⟨typeOf ty, x⟩

mutual

/-- Constants have the values of their initializers, static assertions hold, and widths are the values
of their width expressions. -/
def ValuesS (P : Prog) : AStmt → Prop
  | .const_ _ cv _ ty init => (∀ t ∈ ty, WidthsT P t) ∧ WidthsE P init ∧ ConstIs P cv ty init
  | .let_ _ _ _ ty init => (∀ t ∈ ty, WidthsT P t) ∧ ∀ e ∈ init, WidthsE P e
  | .staticAssert _ _ e => WidthsE P e ∧ HasValue P e CVal.tt
  | .ifThen _ _ c t => WidthsE P c ∧ ValuesS P t
  | .ifElse _ _ c t e => WidthsE P c ∧ ValuesS P t ∧ ValuesS P e
  | .while_ _ _ c b => WidthsE P c ∧ ValuesS P b
  | .control _ _ _ e => ∀ x ∈ e, WidthsE P x
  | .assign _ _ _ _ e => WidthsE P e
  | .block _ _ ss => ValuesSs P ss
  | .call e => WidthsE P e

/-- The same for several statements. -/
def ValuesSs (P : Prog) : List AStmt → Prop
  | [] => True
  | s :: ss => ValuesS P s ∧ ValuesSs P ss

end

/-- The same for a function; if it has a requires-clause, this is true. -/
structure ValuesF (P : Prog) (f : AFn) : Prop where
  params : ∀ p ∈ f.params, WidthsT P p.type
  ret : WidthsT P f.ret
  reqs : ∀ e ∈ f.requires_, WidthsE P e ∧ HasValue P e CVal.tt
  body : 2 ≤ f.level.rank → ValuesSs P f.body

/-- The same for a global declaration, in the state that analysis ends in. Initializers of constants and
conditions of static assertions are, after analysis, the same expressions with values, where calls of
generic functions refer to instances. -/
def ValuesD (s : ASt) : ADecl → Prop
  | .const_ k _ _ ty init => ∃ v ty' init', s.decl k = some ⟨.const_, some v⟩ ∧
      SameO (SameT (Redirect s)) ty ty' ∧ SameE (Redirect s) init init' ∧
      (∀ t ∈ ty', WidthsT (progOf s) t) ∧ WidthsE (progOf s) init' ∧ ConstIs (progOf s) (some v) ty' init'
  | .staticAssert _ _ e => ∃ e', SameE (Redirect s) e e' ∧ WidthsE (progOf s) e' ∧ HasValue (progOf s) e' CVal.tt
  | .function f => f.generic = false → ∃ f', s.fns f.k = some f' ∧ SameF (Redirect s) f f' ∧
      Level.full.rank ≤ f'.level.rank ∧ ValuesF (progOf s) f'

end Bms.Spec
