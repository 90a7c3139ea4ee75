import Verif.Spec.Analysis

/-!
# Specification: programs for which analysis neither throws nor has undefined behavior

A program is calm if its constant expressions have no calls and can be computed (or have an error that must
be reported), and the operators outside of constant expressions are used in a way that is known not to
throw. What is excluded are programs for which the properties in Props/AnalysisCases.lean are violated, and
some others, because types of variables are not taken into account.
-/

namespace Bms.Spec

/-- What is known about the names of a program: declarations of variables and constants, functions, and values
of constants. -/
structure Facts where
  kinds : List (Key × DeclKind)
  fns : List Key
  value : Key → Option CVal

/-- There is a declaration with the key. -/
def Facts.declared (K : Facts) (j : Key) : Bool :=
  K.fns.contains j || K.kinds.contains (j, .const_) || K.kinds.contains (j, .let_)

/-- The last step of a computation in a constant expression: if the check of types fails, or an operation
cannot be performed, this has to be reported. Exceptions and undefined behavior are excluded. -/
def computed (check : Outcome CheckErr CType) (result : Outcome EvalErr CVal) : Outcome Unit CVal :=
  match check with
  | .ok _ =>
    match result with
    | .ok v => .ok v
    | .err _ => .err ()
    | _ => .throws
  | _ => .err ()

/-- The same, where operations must be possible. -/
def possible (check : Outcome CheckErr CType) (result : Outcome EvalErr CVal) : Outcome Unit CVal :=
  match check with
  | .ok _ =>
    match result with
    | .ok v => .ok v
    | _ => .throws
  | _ => .err ()

mutual

/-- The value of a constant expression, or an error that has to be reported; `throws` for constant
expressions that are not considered. -/
def constE (K : Facts) : AExpr → Outcome Unit CVal
  | .literal _ _ lit =>
    match lit with
    | some .true_ => .ok (CVal.ofBool true)
    | some .false_ => .ok (CVal.ofBool false)
    | some (.integer text) =>
      match parseIntegerLiteral text with
      | some x => .ok (CVal.ofInt x)
      | none => .err ()
    | none => .throws
  | .id _ _ _ ref _ =>
    match ref with
    | some (.param _) => .err ()
    | some (.node j) =>
      if K.kinds.contains (j, .const_) then
        match K.value j with
        | some v => .ok v
        | none => .err ()
      else if K.declared j then .err ()
      else .throws
    | _ => .throws
  | .conversion _ _ e ty => do
    let v ← constE K e
    let t ← constT K ty
    if ¬ v.type.isConvertibleTo t then .err ()
    else possible (.ok t) (evalConversion v t)
  | .ite _ _ l c r => do
    let c ← constE K c
    if c.type ≠ .bool then .err ()
    else
      match constE K l, constE K r with
      | .ok l, .ok r => possible (checkIf l.type c.type r.type) (evalIf l c r)
      | _, _ => .throws
  | .binary _ _ op l r => do
    let l ← constE K l
    if Gen.isShortCircuit op then
      if l.type ≠ .bool then .err ()
      else
        match constE K r with
        | .ok r => possible (checkBinary l.type op r.type) (evalBinary l op r)
        | _ => .throws
    else do
      let r ← constE K r
      computed (checkBinary l.type op r.type) (evalBinary l op r)
  | .prefix _ _ op e => do
    let v ← constE K e
    computed (checkUnary op v.type) (evalUnary op v)
  | .call .. => .throws

/-- The same for types. Widths of type `Uint` and the widths 1 and 128 are not considered. -/
def constT (K : Facts) : AType → Outcome Unit CType
  | .base _ _ b => .ok b.type
  | .uint _ _ _ w => do
    let v ← constE K w
    if ¬ v.type.isInteger then .err ()
    else if v.type ≠ .int then .throws
    else if v.int ≤ 0 ∨ 128 < v.int then .err ()
    else if v.int = 1 ∨ v.int = 128 then .throws
    else .ok (.uint v.int.toNat)

end

/-- There is a value, or an error that has to be reported. -/
def considered {ε α : Type} : Outcome ε α → Bool
  | .ok _ => true
  | .err _ => true
  | _ => false

/-- The value of the expression depends on a variable, a parameter or a call. -/
def openE (K : Facts) : AExpr → Bool
  | .literal .. => false
  | .id _ _ _ ref _ =>
    match ref with
    | some (.param _) => true
    | some (.node j) => K.kinds.contains (j, .let_)
    | _ => false
  | .conversion _ _ e _ => openE K e
  | .ite _ _ l c r => openE K c || (openE K l && openE K r)
  | .binary _ _ _ l r => openE K l || openE K r
  | .prefix _ _ _ e => openE K e
  | .call _ _ _ _ ref _ =>
    match ref with
    | some (.node _) => true
    | _ => false

/-- Operators with checks of the right operand. -/
def divides (op : ExprType) : Bool :=
  op = .division || op = .remainder || op = .shift_left || op = .shift_right

/-- Operators that are defined for all operands. -/
def total (op : ExprType) : Bool :=
  op = .less_than || op = .greater_than || op = .less_or_equal || op = .greater_or_equal ||
    op = .bitwise_and || op = .bitwise_or || op = .bitwise_xor || op = .logical_and || op = .logical_or

/-- A binary operator outside of constant expressions that can be computed, or depends on something that is not
known. -/
def calmOp (K : Facts) (op : ExprType) (l r : AExpr) : Bool :=
  total op || openE K r || (openE K l && !divides op) ||
    match constE K l, constE K r with
    | .ok a, .ok b => considered (evalBinary a op b)
    | _, _ => false

/-- The same for prefix operators. -/
def calmPrefix (K : Facts) (op : ExprType) (e : AExpr) : Bool :=
  op ≠ .unary_minus || openE K e ||
    match constE K e with
    | .ok a => considered (evalUnary op a)
    | _ => false

mutual

/-- A calm expression in a function with parameters `own`, in which the function `bad` may not be called. -/
def calmE (K : Facts) (own : List Key) (bad : Option Key) : AExpr → Bool
  | .literal _ _ lit => lit.isSome
  | .id _ _ _ ref _ =>
    match ref with
    | some (.param p) => own.contains p
    | some (.node j) => K.declared j
    | _ => false
  | .conversion _ _ e ty => calmE K own bad e && considered (constT K ty)
  | .ite _ _ l c r => calmE K own bad l && calmE K own bad c && calmE K own bad r
  | .binary _ _ op l r => calmE K own bad l && calmE K own bad r && calmOp K op l r
  | .prefix _ _ op e => calmE K own bad e && calmPrefix K op e
  | .call _ _ _ _ ref args =>
    match ref with
    | some (.builtin _) => calmEs K own bad args
    | some (.node j) => K.declared j && bad ≠ some j && calmEs K own bad args
    | _ => false

/-- The same for several expressions. -/
def calmEs (K : Facts) (own : List Key) (bad : Option Key) : List AExpr → Bool
  | [] => true
  | e :: es => calmE K own bad e && calmEs K own bad es

end

/-- A calm constant: if it can be computed, it has the value that is assumed. -/
def calmConst (K : Facts) (k : Key) (ty : Option AType) (init : AExpr) : Bool :=
  match ty with
  | none =>
    match constE K init with
    | .ok v => K.value k = some v
    | .err _ => true
    | _ => false
  | some ty =>
    match constT K ty with
    | .ok t =>
      match constE K init with
      | .ok v =>
        match evalConversion v t with
        | .ok w => K.value k = some w
        | .err _ => true
        | _ => false
      | .err _ => true
      | _ => false
    | .err _ => true
    | _ => false

mutual

/-- A calm statement; variables in `seen` are declared before it. -/
def calmS (K : Facts) (own : List Key) (bad : Option Key) (seen : List Key) : AStmt → Bool
  | .const_ k _ _ ty init => calmConst K k ty init
  | .let_ _ _ _ ty init =>
    (ty.isSome || init.isSome) && ty.all (fun t => considered (constT K t)) && init.all (calmE K own bad)
  | .staticAssert _ _ e => considered (constE K e)
  | .ifThen _ _ c t => calmE K own bad c && calmS K own bad seen t
  | .ifElse _ _ c t e =>
    calmE K own bad c && calmS K own bad seen t && calmS K own bad (seen ++ (declsS t).map Prod.fst) e
  | .while_ _ _ c b => calmE K own bad c && calmS K own bad seen b
  | .control _ _ _ e => e.all (calmE K own bad)
  | .assign _ _ _ ref e =>
    calmE K own bad e &&
    match ref with
    | some (.param _) => true
    | some (.node j) => K.declared j && (!K.kinds.contains (j, .let_) || seen.contains j)
    | _ => false
  | .block _ _ ss => calmSs K own bad seen ss
  | .call e => calmE K own bad e

/-- The same for several statements. -/
def calmSs (K : Facts) (own : List Key) (bad : Option Key) (seen : List Key) : List AStmt → Bool
  | [] => true
  | s :: ss => calmS K own bad seen s && calmSs K own bad (seen ++ (declsS s).map Prod.fst) ss

end

/-- A calm function: it is not generic, and does not call itself unless it has a requires-clause. -/
def calmF (K : Facts) (f : AFn) : Bool :=
  !f.generic && f.params.all (fun p => considered (constT K p.type)) && considered (constT K f.ret) &&
    f.requires_.all (fun e => considered (constE K e)) &&
    calmSs K (f.params.map AParam.k) (if f.requires_.isSome then none else some f.k) [] f.body

/-- A calm global declaration. -/
def calmD (K : Facts) : ADecl → Bool
  | .const_ k _ _ ty init => calmConst K k ty init
  | .staticAssert _ _ e => considered (constE K e)
  | .function f => calmF K f

/-- The names of a program after name lookup, and the given values of constants. -/
def factsOf (ds : List ADecl) (value : Key → Option CVal) : Facts where
  kinds := ds.flatMap fun d =>
    match d with
    | .const_ k _ _ _ _ => [(k, .const_)]
    | .staticAssert .. => []
    | .function f => declsSs f.body
  fns := ds.flatMap fun d =>
    match d with
    | .function f => [f.k]
    | _ => []
  value := value

/-- A calm program after name lookup. -/
def CalmProgram (ds : List ADecl) : Prop := ∃ value, ∀ d ∈ ds, calmD (factsOf ds value) d = true

end Bms.Spec
