import Verif.Spec.Source
import Mathlib.Data.List.Forall2

/-!
# Specification: well-typed trees

What analysis establishes about the tree of a function: every node carries a value of its type, known
only if the known values of its children determine it. Compare src/bms/analyze.cpp; that analysis
establishes this is proved elsewhere.
-/

namespace Bms.Spec

/-- What surrounds an expression: values of constants, types of variables and parameters, and
parameter and result types of functions. -/
structure Ctx where
  consts : Key → Option CVal
  vars : Key → Option CType
  fns : Key → Option (List CType × CType)

/-- The value that a node gets if evaluation of the values of its children has outcome `o`: the
result, or, if evaluation reports an error, an unknown value of the checked type. -/
def Folds (o : Outcome EvalErr Value) (t : CType) (w : Value) : Prop :=
  o = .ok w ∨ (∃ e, o = .err e) ∧ w = Value.unknownOf t

/-- Well-typed expressions. Calls in expressions are not marked as statements. -/
inductive Typed (Γ : Ctx) : Expr → Prop
  | literal {l v} : litValue l = some v → Typed Γ (.literal l (some (Value.known v)))
  | var {k t} : Γ.consts k = none → Γ.vars k = some t →
      Typed Γ (.id (some (Value.unknownOf t)) (some (.node k)))
  | param {k t} : Γ.vars k = some t → Typed Γ (.id (some (Value.unknownOf t)) (some (.param k)))
  | const_ {k v} : Γ.consts k = some v → Typed Γ (.id (some (Value.known v)) (some (.node k)))
  | width {v} : WF v → Typed Γ (.id (some (Value.known v)) none)
  | conversion {e v t w} : Typed Γ e → e.cv = some v → t.WF → v.type.isConvertibleTo t = true →
      Folds (evalConversionV v t) t w → Typed Γ (.conversion (some w) e (some t))
  | ite {l c r vl vc vr t w} : Typed Γ l → Typed Γ c → Typed Γ r →
      l.cv = some vl → c.cv = some vc → r.cv = some vr →
      checkIf vl.type vc.type vr.type = .ok t → Folds (evalIfV vl vc vr) t w →
      Typed Γ (.ite (some w) l c r)
  | binary {op l r vl vr t w} : Typed Γ l → Typed Γ r → l.cv = some vl → r.cv = some vr →
      checkBinary vl.type op vr.type = .ok t → Folds (evalBinaryV vl op vr) t w →
      Typed Γ (.binary (some w) op l r)
  | pre {op e v t w} : Typed Γ e → e.cv = some v → checkUnary op v.type = .ok t →
      Folds (evalUnaryV op v) t w → Typed Γ (.prefix (some w) op e)
  | call {k ts t args} : Γ.fns k = some (ts, t) → (∀ a ∈ args, Typed Γ a) →
      List.Forall₂ (fun (a : Expr) (t : CType) =>
        ∃ v : Value, a.cv = some v ∧ v.type.isConvertibleTo t = true) args ts →
      Typed Γ (.call (some (Value.unknownOf t)) false (some (.node k)) args)
  | builtin {f args vs w} : (∀ a ∈ args, Typed Γ a) → args.map Expr.cv = vs.map some →
      evalBuiltinV f vs = .ok w → Typed Γ (.call (some w) false (some (.builtin f)) args)

mutual

/-- Well-typed statements of a function with result type `ret`; `loop`: inside a loop. A constant
without known value is, for the statements that use it, a variable that never gets a value. -/
inductive TypedS (Γ : Ctx) (ret : CType) : Bool → Stmt → Prop
  | const_ {loop k d v e} : Γ.consts k = some v → TypedS Γ ret loop (.const_ k d (some (Value.known v)) e)
  | constUnknown {loop k d t e} : Γ.consts k = none → Γ.vars k = some t →
      TypedS Γ ret loop (.const_ k d (some (Value.unknownOf t)) e)
  | letNone {loop k d t} : Γ.consts k = none → Γ.vars k = some t →
      TypedS Γ ret loop (.let_ k d (some (Value.unknownOf t)) none)
  | letInit {loop k d t e v} : Γ.consts k = none → Γ.vars k = some t → Typed Γ e → e.cv = some v →
      v.type.isConvertibleTo t = true →
      TypedS Γ ret loop (.let_ k d (some (Value.unknownOf t)) (some e))
  | staticAssert {loop e} : TypedS Γ ret loop (.staticAssert (some (Value.known CVal.tt)) e)
  | ifThen {loop c t v} : Typed Γ c → c.cv = some v → v.type = .bool → TypedS Γ ret loop t →
      TypedS Γ ret loop (.ifThen c t)
  | ifElse {loop c t e v} : Typed Γ c → c.cv = some v → v.type = .bool → TypedS Γ ret loop t →
      TypedS Γ ret loop e → TypedS Γ ret loop (.ifElse c t e)
  | while_ {loop c b v} : Typed Γ c → c.cv = some v → v.type = .bool → TypedS Γ ret true b →
      TypedS Γ ret loop (.while_ c b)
  | break_ : TypedS Γ ret true (.control .break_ (some (Value.known CVal.void)) none)
  | continue_ : TypedS Γ ret true (.control .continue_ (some (Value.known CVal.void)) none)
  | returnVoid {loop} : ret = .void →
      TypedS Γ ret loop (.control .return_ (some (Value.known CVal.void)) none)
  | return_ {loop e v w} : Typed Γ e → e.cv = some v → v.type.isConvertibleTo ret = true →
      Folds (evalConversionV v ret) ret w → TypedS Γ ret loop (.control .return_ (some w) (some e))
  | assign {loop k t e v w} : Γ.consts k = none → Γ.vars k = some t → Typed Γ e → e.cv = some v →
      v.type.isConvertibleTo t = true → Folds (evalConversionV v t) t w →
      TypedS Γ ret loop (.assign (some w) (some (.node k)) e)
  | block {loop ss} : TypedSs Γ ret loop ss → TypedS Γ ret loop (.block ss)
  | call {loop cv ref args} : Typed Γ (.call cv false ref args) →
      TypedS Γ ret loop (.call (.call cv true ref args))

/-- Well-typed lists of statements. -/
inductive TypedSs (Γ : Ctx) (ret : CType) : Bool → List Stmt → Prop
  | nil {loop} : TypedSs Γ ret loop []
  | cons {loop s ss} : TypedS Γ ret loop s → TypedSs Γ ret loop ss → TypedSs Γ ret loop (s :: ss)

end

/-- A well-formed context: constants are values of their type, all types exist, and variables have
keys that name variables. -/
structure Ctx.WF (Γ : Ctx) : Prop where
  consts : ∀ k v, Γ.consts k = some v → Spec.WF v
  vars : ∀ k t, Γ.vars k = some t → t.WF ∧ k ≠ sentinelKey
  fns : ∀ k ts t, Γ.fns k = some (ts, t) → t.WF ∧ ∀ u ∈ ts, u.WF

/-- The context of the body of a function, if the variables have types `vars`. -/
def Prog.ctx (P : Prog) (vars : Key → Option CType) : Ctx where
  consts := P.consts
  vars := vars
  fns k := (P.fns k).map fun f => (f.params.map Prod.snd, f.ret)

/-- A well-typed program: the body of every function is well-typed, with types for its variables
that give every parameter its type. -/
def Prog.Typed (P : Prog) : Prop :=
  ∀ k f, P.fns k = some f → ∃ vars, (P.ctx vars).WF ∧ (∀ p ∈ f.params, vars p.1 = some p.2) ∧
    TypedSs (P.ctx vars) f.ret false f.body

mutual

/-- The end of the statement is not reached: it is a `return`, or a conditional statement with two
such branches, or contains such a statement in sequence. -/
def Returns : Stmt → Prop
  | .control .return_ _ _ => True
  | .ifElse _ t e => Returns t ∧ Returns e
  | .block ss => ReturnsAny ss
  | _ => False

/-- The end of one of the statements is not reached. -/
def ReturnsAny : List Stmt → Prop
  | [] => False
  | s :: ss => Returns s ∨ ReturnsAny ss

end

/-- Every function that has a result returns it. -/
def Prog.Returns (P : Prog) : Prop :=
  ∀ k f, P.fns k = some f → f.ret ≠ .void → ReturnsAny f.body

mutual

/-- The statement ends with a `return`, in both branches if it is conditional. -/
def Ends : Stmt → Prop
  | .control .return_ _ _ => True
  | .ifElse _ t e => Ends t ∧ Ends e
  | .block ss => EndsLast ss
  | _ => False

/-- The last of the statements ends with a `return`. -/
def EndsLast : List Stmt → Prop
  | [] => False
  | [s] => Ends s
  | _ :: s :: ss => EndsLast (s :: ss)

end

/-- `return`, `break` and `continue`. -/
def isControl : Stmt → Bool
  | .control _ _ _ => true
  | _ => false

/-- Every function ends with a `return`, except for functions without result that have no `return`
outside of nested statements. -/
def Prog.Ends (P : Prog) : Prop :=
  ∀ k f, P.fns k = some f → EndsLast f.body ∨ (f.ret = .void ∧ ∀ s ∈ f.body, isControl s = false)

mutual

/-- Both branches of every conditional expression have the type of the expression. -/
def Homogeneous : Expr → Prop
  | .literal _ _ => True
  | .id _ _ => True
  | .conversion _ e _ => Homogeneous e
  | .ite cv l c r => l.cv.map Value.type = cv.map Value.type ∧ r.cv.map Value.type = cv.map Value.type ∧
      Homogeneous l ∧ Homogeneous c ∧ Homogeneous r
  | .binary _ _ l r => Homogeneous l ∧ Homogeneous r
  | .prefix _ _ e => Homogeneous e
  | .call _ _ _ args => HomogeneousAll args

/-- The same for several expressions. -/
def HomogeneousAll : List Expr → Prop
  | [] => True
  | e :: es => Homogeneous e ∧ HomogeneousAll es

end

mutual

/-- Moreover, initializers and assigned expressions have the type of the variable. -/
def HomogeneousS : Stmt → Prop
  | .const_ _ _ _ _ => True
  | .let_ _ _ _ none => True
  | .let_ _ _ cv (some e) => e.cv.map Value.type = cv.map Value.type ∧ Homogeneous e
  | .staticAssert _ _ => True
  | .ifThen c t => Homogeneous c ∧ HomogeneousS t
  | .ifElse c t e => Homogeneous c ∧ HomogeneousS t ∧ HomogeneousS e
  | .while_ c b => Homogeneous c ∧ HomogeneousS b
  | .control _ _ none => True
  | .control _ _ (some e) => Homogeneous e
  | .assign cv _ e => e.cv.map Value.type = cv.map Value.type ∧ Homogeneous e
  | .block ss => HomogeneousSs ss
  | .call e => Homogeneous e

/-- The same for several statements. -/
def HomogeneousSs : List Stmt → Prop
  | [] => True
  | s :: ss => HomogeneousS s ∧ HomogeneousSs ss

end

mutual

/-- Variables that the statement declares without initializer. -/
def uninitialized : Stmt → List Key
  | .let_ k _ _ none => [k]
  | .ifThen _ t => uninitialized t
  | .ifElse _ t e => uninitialized t ++ uninitialized e
  | .while_ _ b => uninitialized b
  | .block ss => uninitializedAll ss
  | _ => []

/-- Variables that one of the statements declares without initializer. -/
def uninitializedAll : List Stmt → List Key
  | [] => []
  | s :: ss => uninitialized s ++ uninitializedAll ss

end

mutual

/-- Variables that the statement may give a value. -/
def assigned : Stmt → List Key
  | .let_ k _ _ (some _) => [k]
  | .assign _ (some (.node k)) _ => [k]
  | .ifThen _ t => assigned t
  | .ifElse _ t e => assigned t ++ assigned e
  | .while_ _ b => assigned b
  | .block ss => assignedAll ss
  | _ => []

/-- Variables that one of the statements may give a value. -/
def assignedAll : List Stmt → List Key
  | [] => []
  | s :: ss => assigned s ++ assignedAll ss

end

mutual

/-- Every variable that is declared without initializer is declared outside of loops, and not
assigned in statements before the declaration. -/
def Fresh : Stmt → Prop
  | .ifThen _ t => Fresh t
  | .ifElse _ t e => Fresh t ∧ Fresh e
  | .while_ _ b => Fresh b ∧ uninitialized b = []
  | .block ss => FreshAll ss
  | _ => True

/-- The same for several statements. -/
def FreshAll : List Stmt → Prop
  | [] => True
  | s :: ss => Fresh s ∧ (∀ k ∈ uninitializedAll ss, k ∉ assigned s) ∧ FreshAll ss

end

end Bms.Spec
