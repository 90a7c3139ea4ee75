import Verif.Spec.Calm

/-!
# Specification: well-typed programs

The rules that a program has to follow so that it may be expected to be accepted: types of operands, conditions,
arguments, initial values and results fit, constants are used after their declaration and can be computed,
asserted constants are true, `break` and `continue` are in loops, and only variables are assigned to. The rules
are stated for programs after name lookup, in terms of declarations, not of the state of the analysis.
-/

namespace Bms.Spec

/-- What the rules refer to: the names and the values of constants, the types of parameters and variables, and
the functions. -/
structure Typing where
  names : Facts
  var : Key → Option CType
  fns : List AFn

mutual

/-- The declarations that an expression refers to. -/
def mentionsE : AExpr → List Key
  | .literal .. => []
  | .id _ _ _ ref _ =>
    match ref with
    | some (.node j) => [j]
    | _ => []
  | .conversion _ _ e ty => mentionsE e ++ mentionsT ty
  | .ite _ _ l c r => mentionsE l ++ mentionsE c ++ mentionsE r
  | .binary _ _ _ l r => mentionsE l ++ mentionsE r
  | .prefix _ _ _ e => mentionsE e
  | .call _ _ _ _ _ args => mentionsEs args

/-- The declarations that a type refers to. -/
def mentionsT : AType → List Key
  | .base .. => []
  | .uint _ _ _ w => mentionsE w

/-- The same for several expressions. -/
def mentionsEs : List AExpr → List Key
  | [] => []
  | e :: es => mentionsE e ++ mentionsEs es

end

/-- All of `js` are declared before. -/
def before (seen js : List Key) : Bool := js.all seen.contains

/-- The value of a constant expression after the declarations in `seen`. -/
def valueE (T : Typing) (seen : List Key) (e : AExpr) : Option CVal :=
  match constE T.names e with
  | .ok v => if before seen (mentionsE e) then some v else none
  | _ => none

/-- The type that a type node stands for, after the declarations in `seen`. -/
def valueT (T : Typing) (seen : List Key) (ty : AType) : Option CType :=
  match constT T.names ty with
  | .ok t => if before seen (mentionsT ty) then some t else none
  | _ => none

/-- The types of several type nodes. -/
def valueTs (T : Typing) (seen : List Key) : List AType → Option (List CType)
  | [] => some []
  | ty :: tys =>
    match valueT T seen ty, valueTs T seen tys with
    | some t, some ts => some (t :: ts)
    | _, _ => none

/-- The parameter types and the result type of a function that can be called after the declarations in `seen`:
it is not generic, and its requires-clause holds. -/
def signatureOf (T : Typing) (seen : List Key) (j : Key) : Option (List CType × CType) :=
  match T.fns.find? fun f => f.k = j with
  | some f =>
    if f.generic || !f.requires_.all (fun e => valueE T seen e = some (CVal.ofBool true)) then none
    else
      match valueTs T seen (f.params.map AParam.type), valueT T seen f.ret with
      | some ts, some t => some (ts, t)
      | _, _ => none
  | none => none

/-- One type for each, to which it can be converted. -/
def convertible : List CType → List CType → Bool
  | [], [] => true
  | s :: ss, t :: ts => s.isConvertibleTo t && convertible ss ts
  | _, _ => false

/-- The type, if the check succeeds. -/
def passed (o : Outcome CheckErr CType) : Option CType :=
  match o with
  | .ok t => some t
  | _ => none

/-- The value of the expression is not known in advance, or it is true. -/
def mayHold (T : Typing) (seen : List Key) (e : AExpr) : Bool :=
  openE T.names e || valueE T seen e = some (CVal.ofBool true)

mutual

/-- The type of an expression in the function `self` with parameters `own`, after the declarations in `seen`.
Calls of `self` are not considered. -/
def typeE (T : Typing) (self : Key) (own seen : List Key) : AExpr → Option CType
  | .literal _ _ lit =>
    match lit with
    | some .true_ => some .bool
    | some .false_ => some .bool
    | some (.integer text) => if (parseIntegerLiteral text).isSome then some .int else none
    | none => none
  | .id _ _ _ ref _ =>
    match ref with
    | some (.param p) => if own.contains p then T.var p else none
    | some (.node j) =>
      if !seen.contains j then none
      else if T.names.kinds.contains (j, .const_) then (T.names.value j).map CVal.type
      else if T.names.kinds.contains (j, .let_) then T.var j
      else none
    | _ => none
  | .conversion _ _ e ty =>
    match typeE T self own seen e, valueT T seen ty with
    | some s, some t => if s.isConvertibleTo t then some t else none
    | _, _ => none
  | .ite _ _ l c r =>
    match typeE T self own seen l, typeE T self own seen c, typeE T self own seen r with
    | some l, some c, some r => passed (checkIf l c r)
    | _, _, _ => none
  | .binary _ _ op l r =>
    match typeE T self own seen l, typeE T self own seen r with
    | some l, some r => passed (checkBinary l op r)
    | _, _ => none
  | .prefix _ _ op e =>
    match typeE T self own seen e with
    | some t => passed (checkUnary op t)
    | none => none
  | .call _ _ _ _ ref args =>
    match ref, typeEs T self own seen args with
    | some (.builtin f), some ts => if args.all (mayHold T seen) then passed (checkBuiltin f ts) else none
    | some (.node j), some ts =>
      match signatureOf T seen j with
      | some (us, t) => if j ≠ self ∧ convertible ts us then some t else none
      | none => none
    | _, _ => none

/-- The same for several expressions. -/
def typeEs (T : Typing) (self : Key) (own seen : List Key) : List AExpr → Option (List CType)
  | [] => some []
  | e :: es =>
    match typeE T self own seen e, typeEs T self own seen es with
    | some t, some ts => some (t :: ts)
    | _, _ => none

end

/-- The value of a constant: that of its initializer, converted if there is a type. -/
def constantOf (T : Typing) (seen : List Key) (ty : Option AType) (init : AExpr) : Option CVal :=
  match ty with
  | none => valueE T seen init
  | some ty =>
    match valueT T seen ty, valueE T seen init with
    | some t, some v =>
      if v.type.isConvertibleTo t then
        match evalConversion v t with
        | .ok w => some w
        | _ => none
      else none
    | _, _ => none

/-- The declaration of a constant that has the given value. -/
def okConst (T : Typing) (seen : List Key) (k : Key) (ty : Option AType) (init : AExpr) : Bool :=
  T.names.kinds.contains (k, .const_) && (constantOf T seen ty init).isSome && T.names.value k = constantOf T seen ty init

/-- The type of a variable: the given one, or that of the initial value. -/
def varType (T : Typing) (self : Key) (own seen : List Key) (ty : Option AType) (init : Option AExpr) : Option CType :=
  match ty, init with
  | none, none => none
  | none, some e => typeE T self own seen e
  | some ty, none => valueT T seen ty
  | some ty, some e =>
    match valueT T seen ty, typeE T self own seen e with
    | some t, some s => if s.isConvertibleTo t then some t else none
    | _, _ => none

/-- An expression of a type that can be converted to `t`. -/
def fits (T : Typing) (self : Key) (own seen : List Key) (e : AExpr) (t : CType) : Bool :=
  match typeE T self own seen e with
  | some s => s.isConvertibleTo t
  | none => false

/-- What is declared for the statements after a statement. -/
def declares : AStmt → List Key
  | .const_ k .. => [k]
  | .let_ k .. => [k]
  | _ => []

mutual

/-- The rules for statements in the function `self` with parameters `own` and result type `ret`, after the
declarations in `seen`; `loop`: inside a loop. -/
def okS (T : Typing) (self : Key) (own : List Key) (ret : CType) (loop : Bool) (seen : List Key) : AStmt → Bool
  | .const_ k _ _ ty init => okConst T seen k ty init
  | .let_ k _ _ ty init =>
    T.names.kinds.contains (k, .let_) && (varType T self own seen ty init).isSome &&
      T.var k = varType T self own seen ty init
  | .staticAssert _ _ e => valueE T seen e = some (CVal.ofBool true)
  | .ifThen _ _ c t => typeE T self own seen c = some .bool && okS T self own ret loop seen t
  | .ifElse _ _ c t e =>
    typeE T self own seen c = some .bool && okS T self own ret loop seen t && okS T self own ret loop seen e
  | .while_ _ _ c b => typeE T self own seen c = some .bool && okS T self own ret true seen b
  | .control _ _ c e =>
    match c, e with
    | .return_, none => ret = .void
    | .return_, some e => fits T self own seen e ret
    | _, _ => loop
  | .assign _ _ _ ref e =>
    match ref with
    | some (.node j) =>
      seen.contains j && T.names.kinds.contains (j, .let_) &&
        match T.var j with
        | some t => fits T self own seen e t
        | none => false
    | _ => false
  | .block _ _ ss => okSs T self own ret loop seen ss
  | .call e => (typeE T self own seen e).isSome

/-- The same for several statements. -/
def okSs (T : Typing) (self : Key) (own : List Key) (ret : CType) (loop : Bool) (seen : List Key) : List AStmt → Bool
  | [] => true
  | s :: ss => okS T self own ret loop seen s && okSs T self own ret loop (seen ++ declares s) ss

end

/-- The parameters have the types that are assumed. -/
def okParams (T : Typing) : List AParam → List CType → Bool
  | [], [] => true
  | p :: ps, t :: ts => T.var p.k = some t && okParams T ps ts
  | _, _ => false

/-- The rules for functions. -/
def okF (T : Typing) (seen : List Key) (f : AFn) : Bool :=
  match signatureOf T seen f.k with
  | some (ts, t) => okParams T f.params ts && okSs T f.k (f.params.map AParam.k) t false seen f.body
  | none => false

/-- The rules for global declarations. -/
def okDs (T : Typing) (seen : List Key) : List ADecl → Bool
  | [] => true
  | .const_ k _ _ ty init :: ds => okConst T seen k ty init && okDs T (seen ++ [k]) ds
  | .staticAssert _ _ e :: ds => valueE T seen e = some (CVal.ofBool true) && okDs T seen ds
  | .function f :: ds => okF T seen f && okDs T seen ds

/-- The functions of a program. -/
def functionsIn (ds : List ADecl) : List AFn :=
  ds.flatMap fun d =>
    match d with
    | .function f => [f]
    | _ => []

/-- A program, after name lookup, that follows the rules. -/
def WellTyped (ds : List ADecl) : Prop :=
  ∃ value var, okDs ⟨factsOf ds value, var, functionsIn ds⟩ [] ds = true

end Bms.Spec
