import Verif.Model.Instantiate
import Verif.Model.ConstEval

/-!
# Type analysis

Transcribes src/bms/analyze.cpp. The analyzer writes `const_value` and `concrete_width` of nodes,
`lookup_result` of calls of generic functions, and the state of analysis of functions. Here, analysis
of a node returns the node with these fields filled, and what can be read from other places of the
program is part of the state: `const_value` of declarations, functions, and the instructions of the
machine for constant evaluation.

The recursion over nodes is structural except for calls, which analyze the called function. Functions
that analyze expressions and statements get the function `af` for this as an argument; `Ana.function`
ties the knot with a bound on the nesting depth of calls, which also bounds the cycles of the machine.

Simplifications:
* A function whose parameter or result types are being analyzed is written back after each of them.
  If analysis of them gets to the same function again, it does not succeed (the type is analyzed
  again, without end, or a function on the stack is called), so that it does not matter which of the
  two writes comes last.
* The machine has a state besides its instructions, which `reset` clears except for
  `m_comparison_failure_for_assert`, which is only used for messages.
* Instances of generic functions are analyzed in a loop over `instances`
  (src/bms/analyze.cpp:120-125), which analysis of an instance does not change: names in an instance
  do not refer to anything outside of it.
-/

namespace Bms

/-- Kinds of declarations that `lookup_result` can refer to, apart from functions. -/
inductive DeclKind where
  | let_ | const_ | param | width
deriving DecidableEq, Repr

/-- A declaration: `const_value()` of the node; for parameters, that of their type; for widths, that of
the identifier (src/bms/instantiate.cpp:93). -/
structure Decl where
  kind : DeclKind
  cv : Option Value
deriving DecidableEq, Repr

/-- The state of analysis: declarations and functions by key, `m_program.get_vm().instructions()`,
`m_function_stack`, and a bound for the keys in use. -/
structure ASt where
  decl : Key → Option Decl
  fns : Key → Option AFn
  code : List Instr
  stack : List Key
  next : Nat

/-- What an analysis does: it returns a value, reports an error, throws, has undefined behaviour, or
does not end within the bound. -/
inductive ARes (α : Type) where
  | ok (a : α) (s : ASt)
  | err (e : AErr)
  | throws
  | ub
  | timeout

/-- Analyses. -/
def AM (α : Type) := ASt → ARes α

namespace AM

/-- `if (!r) { return r; }`, then the rest. -/
def bind {α β : Type} (x : AM α) (f : α → AM β) : AM β := fun s =>
  match x s with
  | .ok a s => f a s
  | .err e => .err e
  | .throws => .throws
  | .ub => .ub
  | .timeout => .timeout

instance : Monad AM where
  pure a := fun s => .ok a s
  bind := bind

/-- An error. -/
def fail {α : Type} (code : ACode) (k : Key) : AM α := fun _ => .err ⟨code, k⟩

/-- An exception. -/
def throws {α : Type} : AM α := fun _ => .throws

/-- Undefined behaviour. -/
def ub {α : Type} : AM α := fun _ => .ub

/-- Not finished. -/
def timeout {α : Type} : AM α := fun _ => .timeout

/-- A function that does not touch the state, with its errors reported as `f` says. -/
def lift {ε α : Type} (f : ε → AErr) : Outcome ε α → AM α
  | .ok a => fun s => .ok a s
  | .err e => fun _ => .err (f e)
  | .throws => fun _ => .throws
  | .ub => fun _ => .ub

/-- The same for functions that report no errors. -/
def get {α : Type} (x : Outcome AErr α) : AM α := lift _root_.id x

/-- `optional.value()` and similar: throws without value. -/
def value {α : Type} : Option α → AM α
  | some a => fun s => .ok a s
  | none => fun _ => .throws

/-- `*optional`: undefined without value. -/
def deref {α : Type} : Option α → AM α
  | some a => fun s => .ok a s
  | none => fun _ => .ub

/-- `BIT_MANIPULATION_ASSERT`. -/
def assert (b : Bool) : AM Unit := if b then fun s => .ok () s else fun _ => .throws

/-- Read the state. -/
def read : AM ASt := fun s => .ok s s

/-- Change the state. -/
def modify (f : ASt → ASt) : AM Unit := fun s => .ok () (f s)

end AM

/-- `Expression_Context`, src/bms/analyze.cpp:35-40. -/
inductive ECtx where
  | normal | constant
deriving DecidableEq, Repr

/-- `evaluate_…` where an error is not an analysis error: `eval_result ? *eval_result :
unknown_of_type(type)`. In a constant expression, an error is reported if `report`. -/
def foldResult (o : Outcome EvalErr Value) (t : CType) (report : Bool) (k : Key) : AM Value :=
  match o with
  | .ok v => pure v
  | .err e => if report then AM.fail (.evaluation e) k else pure (Value.unknownOf t)
  | .throws => AM.throws
  | .ub => AM.ub

namespace ASt

/-- Write the `const_value` of a declaration. -/
def setDecl (s : ASt) (k : Key) (d : Decl) : ASt :=
  { s with decl := fun j => if j = k then some d else s.decl j }

/-- Write a function. -/
def setFn (s : ASt) (k : Key) (f : AFn) : ASt :=
  { s with fns := fun j => if j = k then some f else s.fns j }

/-- What code generation sees of the functions of the program. -/
def env (s : ASt) : FnEnv := fun k => (s.fns k).map AFn.info

end ASt

namespace Ana

/-- Types of errors of `check_…`. -/
def checked {α : Type} (k : Key) (o : Outcome CheckErr α) : AM α := AM.lift (fun e => ⟨.check e, k⟩) o

/-- `analyze_types` for `Literal`, src/bms/analyze.cpp:1069-1103. -/
def literal (k : Key) (cv : Option Value) (lit : Option Lit) : AM AExpr :=
  match cv with
  | some v => do
    AM.assert v.isKnown
    pure (.literal k (some v) lit)
  | none =>
    match lit with
    | some .true_ => pure (.literal k (some (Value.ofBool true)) lit)
    | some .false_ => pure (.literal k (some (Value.ofBool false)) lit)
    | some (.integer text) =>
      match parseIntegerLiteral text with
      | some x => pure (.literal k (some (Value.known (CVal.ofInt x))) lit)
      | none => AM.fail .invalid_integer_literal k
    | none => AM.throws

/-- `analyze_types` for `Id_Expression` without `const_value`, src/bms/analyze.cpp:990-1067: the value.
A parameter has the `const_value` of its type, which may be missing. -/
def idValue (k : Key) (ref : Option Lookup) (ctx : ECtx) : AM (Option Value) :=
  match ref with
  | none => AM.throws
  | some (.builtin _) => AM.throws
  | some (.param p) =>
    if ctx = .constant then AM.fail .parameter_in_constant_expression k
    else do
      let s ← AM.read
      match s.decl p with
      | some d => pure d.cv
      | none => AM.throws
  | some (.node j) => do
    let s ← AM.read
    match s.fns j with
    | some _ => AM.fail .function_in_expression k
    | none =>
      match s.decl j with
      | some ⟨.let_, cv⟩ =>
        if ctx = .constant then AM.fail .let_variable_in_constant_expression k
        else match cv with
          | none => AM.fail .use_of_undefined_variable k
          | some v => pure (some v)
      | some ⟨.const_, cv⟩ =>
        match cv with
        | none => AM.fail .use_of_undefined_constant k
        | some v => pure (some v)
      | some ⟨.width, cv⟩ =>
        match cv with
        | none => AM.throws
        | some v =>
          if ctx = .constant ∧ ¬ v.isKnown then AM.fail .expected_constant_expression k
          else pure (some v)
      | some ⟨.param, _⟩ => AM.throws
      | none => AM.throws

/-- The context of the right operand, src/bms/analyze.cpp:680-703. -/
def rightContext (k : Key) (op : ExprType) (left : Option Value) (ctx : ECtx) : AM ECtx :=
  if ctx = .constant ∧ Gen.isShortCircuit op then do
    let l ← AM.deref left
    if l.type ≠ .bool then AM.fail .non_bool_logical k
    else do
      let b ← AM.get l.asBool
      pure (if b = decide (op = .logical_or) then .normal else ctx)
  else pure ctx

/-- Deduction of widths from arguments, src/bms/analyze.cpp:831-852. -/
def deduce : List AExpr → List AParam → AM (List Nat)
  | a :: as, p :: ps => do
    AM.assert (p.type.cv.isNone)
    match p.type with
    | .base .. => AM.throws
    | .uint _ _ (some _) _ => deduce as ps
    | .uint _ _ none (.id _ _ _ _ true) => do
      let v ← AM.value a.cv
      if ¬ v.type.isUint then AM.fail .width_deduction_from_non_uint a.key
      else do
        let ws ← deduce as ps
        pure (v.type.width :: ws)
    | .uint _ _ none _ => deduce as ps
  | _, _ => pure []

/-- The declarations that a new instance adds. -/
def declareParams (ps : List AParam) (decl : Key → Option Decl) : Key → Option Decl :=
  ps.foldl (fun decl p =>
    let decl := fun j => if j = p.k then some ⟨.param, p.type.cv⟩ else decl j
    match p.type with
    | .uint _ _ _ (.id ki cv _ _ true) => fun j => if j = ki then some ⟨.width, cv⟩ else decl j
    | _ => decl) decl

mutual

/-- The declarations in a statement. -/
def declareStmt : AStmt → (Key → Option Decl) → Key → Option Decl
  | .const_ k cv _ _ _, decl => fun j => if j = k then some ⟨.const_, cv⟩ else decl j
  | .let_ k cv _ _ _, decl => fun j => if j = k then some ⟨.let_, cv⟩ else decl j
  | .ifThen _ _ _ t, decl => declareStmt t decl
  | .ifElse _ _ _ t e, decl => declareStmt e (declareStmt t decl)
  | .while_ _ _ _ b, decl => declareStmt b decl
  | .block _ _ ss, decl => declareStmts ss decl
  | _, decl => decl

/-- The declarations in several statements. -/
def declareStmts : List AStmt → (Key → Option Decl) → Key → Option Decl
  | [], decl => decl
  | s :: ss, decl => declareStmts ss (declareStmt s decl)

end

/-- A function node comes into being: it and its declarations can be looked up. -/
def addFunction (f : AFn) (s : ASt) : ASt :=
  { s with
    decl := declareStmts f.body (declareParams f.params s.decl)
    fns := fun j => if j = f.k then some f else s.fns j }

/-- The called function: for a generic one, its instance, src/bms/analyze.cpp:825-874. The result is
the key of a function that is not generic. -/
def callee (f : AFn) (args : List AExpr) : AM Key :=
  if f.generic then do
    AM.assert (f.params ≠ [])
    let ws ← deduce args f.params
    let s ← AM.read
    match ← AM.get (Inst.function s.next f ws) with
    | (i, none) => pure i.key
    | (i, some g) => do
      AM.modify fun s => { addFunction g s with next := s.next + s.next }
      AM.modify fun s => s.setFn f.k { f with instances := f.instances ++ [i] }
      pure i.key
  else pure f.k

/-- Arguments against parameters, src/bms/analyze.cpp:929-949: the values that are pushed in a
constant expression. -/
def passArgs (k : Key) (ctx : ECtx) : List AExpr → List AParam → AM (List CVal)
  | a :: as, p :: ps => do
    let t ← AM.get p.type.concreteType
    let t ← AM.value t
    let v ← AM.value a.cv
    if ¬ v.type.isConvertibleTo t then AM.fail (.check .incompatible_types) k
    else
      match evalConversionV v t with
      | .ok w =>
        if ctx = .constant then do
          let c ← AM.get w.concrete
          let cs ← passArgs k ctx as ps
          pure (c :: cs)
        else passArgs k ctx as ps
      | .err e =>
        if ctx = .constant then AM.fail (.evaluation e) k else passArgs k ctx as ps
      | .throws => AM.throws
      | .ub => AM.ub
  | _, _ => pure []

/-- A call, after its arguments have been analyzed, of the function with key `j`:
src/bms/analyze.cpp:798-974. The result is the key of the function that is called and the value. -/
def callFunction (n : Nat) (af : Key → Level → AM Unit) (k j : Key) (args : List AExpr)
    (level : Level) (ctx : ECtx) : AM (Key × Value) := do
  let s ← AM.read
  match s.fns j with
  | none => AM.fail .call_non_function k
  | some f =>
    if f.params.length ≠ args.length then AM.fail (.check .wrong_number_of_arguments) k
    else do
      let j ← callee f args
      let s ← AM.read
      let f ← AM.value (s.fns j)
      AM.assert (¬ f.generic)
      let inner := if ctx = .constant ∨ level = .forConst then Level.forConst else .shallow
      if inner = .forConst ∧ j ∈ s.stack then AM.fail .codegen_call_to_unanalyzed k
      else do
        af j inner
        let s ← AM.read
        let f ← AM.value (s.fns j)
        AM.assert (inner.rank ≤ f.level.rank)
        let r ← AM.deref f.cv
        if ctx = .constant then do
          let a ← AM.value f.address
          AM.assert (a < s.code.length)
          let cs ← passArgs k ctx args f.params
          match constantCall { Vm.initial with instructions := s.code } a cs n with
          | none => AM.timeout
          | some (.ok v) => pure (j, Value.known v)
          | some (.err e) => AM.fail (.execution e) k
          | some .throws => AM.throws
          | some .ub => AM.ub
        else do
          let _ ← passArgs k ctx args f.params
          pure (j, Value.unknownOf r.type)

mutual

/-- `analyze_types` for expressions: `Conversion_Expression` src/bms/analyze.cpp:579-611,
`If_Expression` l.613-665, `Binary_Expression` l.667-726, `Prefix_Expression` l.728-752,
`Function_Call_Expression` l.754-975, `Id_Expression` l.977-1007. -/
def expr (n : Nat) (af : Key → Level → AM Unit) : AExpr → Level → ECtx → AM AExpr
  | .literal k cv lit, _, _ => literal k cv lit
  | .id k cv name ref generic, _, ctx =>
    match cv with
    | some v => pure (.id k (some v) name ref generic)
    | none => do
      let cv ← idValue k ref ctx
      pure (.id k cv name ref generic)
  | .conversion k _ e to, level, ctx => do
    let e ← expr n af e level ctx
    let to ← type n af to
    let v ← AM.value e.cv
    let t ← AM.get to.concreteType
    let t ← AM.value t
    if ¬ v.type.isConvertibleTo t then AM.fail (.check .incompatible_types) k
    else do
      let w ← foldResult (evalConversionV v t) t false k
      pure (.conversion k (some w) e to)
  | .ite k _ left cond right, level, ctx => do
    let cond ← expr n af cond level ctx
    let c ← AM.deref cond.cv
    if c.type ≠ .bool then AM.fail (.check .condition_not_bool) k
    else do
      let chosen : Option Bool ← if ctx = .constant then do
          AM.assert c.isKnown
          let b ← AM.get c.asBool
          pure (some b)
        else pure none
      let left ← expr n af left level (if chosen = some false then .normal else ctx)
      let right ← expr n af right level (if chosen = some true then .normal else ctx)
      let l ← AM.deref left.cv
      let r ← AM.deref right.cv
      let t ← checked k (checkIf l.type c.type r.type)
      match evalIfV l c r with
      | .ok w => pure (.ite k (some w) left cond right)
      | .err _ =>
        if ctx = .constant then AM.throws
        else pure (.ite k (some (Value.unknownOf t)) left cond right)
      | .throws => AM.throws
      | .ub => AM.ub
  | .binary k _ op left right, level, ctx => do
    let left ← expr n af left level ctx
    AM.assert (ctx ≠ .constant || left.cv.any Value.isKnown)
    let ctx ← rightContext k op left.cv ctx
    let right ← expr n af right level ctx
    AM.assert (ctx ≠ .constant || right.cv.any Value.isKnown)
    let l ← AM.deref left.cv
    let r ← AM.deref right.cv
    let t ← checked k (checkBinary l.type op r.type)
    let w ← foldResult (evalBinaryV l op r) t (ctx = .constant) k
    pure (.binary k (some w) op left right)
  | .prefix k _ op e, level, ctx => do
    let e ← expr n af e level ctx
    let v ← AM.value e.cv
    let t ← checked k (checkUnary op v.type)
    let w ← foldResult (evalUnaryV op v) t (ctx = .constant) k
    pure (.prefix k (some w) op e)
  | .call k _ stmt name ref args, level, ctx =>
    match ref with
    | none => AM.throws
    | some (.builtin f) => do
      let args ← exprs n af args level ctx
      let vs ← args.mapM fun (a : AExpr) => AM.value a.cv
      let _ ← checked k (checkBuiltin f (vs.map Value.type))
      let w ← AM.lift (fun e => ⟨.evaluation e, k⟩) (evalBuiltinV f vs)
      pure (.call k (some w) stmt name (some (.builtin f)) args)
    | some (.param _) => do
      let _ ← exprs n af args level ctx
      AM.ub
    | some (.node j) => do
      let args ← exprs n af args level ctx
      let (j, w) ← callFunction n af k j args level ctx
      pure (.call k (some w) stmt name (some (.node j)) args)

/-- `analyze_types` for `Type`, src/bms/analyze.cpp:204-238. -/
def type (n : Nat) (af : Key → Level → AM Unit) : AType → AM AType
  | .base k cv b =>
    match cv with
    | some v => pure (.base k (some v) b)
    | none => pure (.base k (some (Value.unknownOf b.type)) b)
  | .uint k cv concrete width =>
    match cv with
    | some v => pure (.uint k (some v) concrete width)
    | none => do
      let width ← expr n af width .forConst .constant
      let w ← AM.value width.cv
      if ¬ w.type.isInteger then AM.fail .width_not_integer width.key
      else do
        let x ← AM.get w.asInt
        if x ≤ 0 ∨ x > 128 then AM.fail .width_invalid width.key
        else do
          let t ← AM.get (CType.mkUint x)
          pure (.uint k (some (Value.unknownOf t)) (some x.toNat) width)

/-- The loop over the arguments, src/bms/analyze.cpp:768-773. -/
def exprs (n : Nat) (af : Key → Level → AM Unit) : List AExpr → Level → ECtx → AM (List AExpr)
  | [], _, _ => pure []
  | e :: es, level, ctx => do
    let e ← expr n af e level ctx
    let _ ← AM.value e.cv
    let es ← exprs n af es level ctx
    pure (e :: es)

end

/-- The type of a declaration with type node, after its analysis, and the node. -/
def declaredType (n : Nat) (af : Key → Level → AM Unit) (ty : AType) : AM (AType × CType) := do
  let ty ← type n af ty
  let v ← AM.value ty.cv
  pure (ty, v.type)

/-- `analyze_types` for `Const`, src/bms/analyze.cpp:240-298: the value, the type node and the
initializer. -/
def const_ (n : Nat) (af : Key → Level → AM Unit) (k : Key) (ty : Option AType) (init : AExpr) :
    AM (Value × Option AType × AExpr) :=
  match ty with
  | none => do
    let init ← expr n af init .forConst .constant
    let v ← AM.deref init.cv
    AM.assert v.isKnown
    pure (v, none, init)
  | some ty => do
    let (ty, t) ← declaredType n af ty
    let init ← expr n af init .forConst .constant
    let v ← AM.deref init.cv
    if ¬ v.type.isConvertibleTo t then AM.fail (.check .incompatible_types) k
    else do
      let w ← AM.lift (fun e => ⟨.evaluation e, k⟩) (evalConversionV v t)
      pure (w, some ty, init)

/-- `analyze_types` for `Let`, src/bms/analyze.cpp:300-351: the type of the variable, the type node and
the initializer. -/
def let_ (n : Nat) (af : Key → Level → AM Unit) (k : Key) (ty : Option AType) (init : Option AExpr)
    (level : Level) : AM (CType × Option AType × Option AExpr) :=
  match ty, init with
  | none, none => AM.throws
  | none, some init => do
    let init ← expr n af init level .normal
    let v ← AM.value init.cv
    pure (v.type, none, some init)
  | some ty, none => do
    let (ty, t) ← declaredType n af ty
    pure (t, some ty, none)
  | some ty, some init => do
    let (ty, t) ← declaredType n af ty
    let init ← expr n af init level .normal
    let v ← AM.deref init.cv
    if ¬ v.type.isConvertibleTo t then AM.fail (.check .incompatible_types) k
    else pure (t, some ty, some init)

/-- `analyze_types` for `Static_Assert` without value, src/bms/analyze.cpp:364-390: the value and the
expression. -/
def staticAssert (n : Nat) (af : Key → Level → AM Unit) (k : Key) (e : AExpr) :
    AM (Value × AExpr) := do
  let e ← expr n af e .forConst .constant
  AM.assert (e.cv.any Value.isKnown)
  let v ← AM.deref e.cv
  if v.type ≠ .bool then AM.fail .static_assert_expression_not_bool k
  else do
    let b ← AM.get v.asBool
    if ¬ b then AM.fail .static_assertion_failed k else pure (v, e)

/-- The condition of `if` and `while`, src/bms/analyze.cpp:399-411, 432-444. -/
def condition (n : Nat) (af : Key → Level → AM Unit) (k : Key) (c : AExpr) (level : Level) :
    AM AExpr := do
  let c ← expr n af c level .normal
  let v ← AM.value c.cv
  if v.type ≠ .bool then AM.fail (.check .condition_not_bool) k else pure c

mutual

/-- `analyze_types` for statements in a function with result type `ret`, `inLoop` if a `While_Statement`
is around: `If_Statement` src/bms/analyze.cpp:393-424, `While_Statement` l.426-452,
`Control_Statement` l.454-506, `Assignment` l.508-561, `Block_Statement` l.563-577. -/
def stmt (n : Nat) (af : Key → Level → AM Unit) (ret : CType) (level : Level) :
    Bool → AStmt → AM AStmt
  | _, .const_ k cv name ty init =>
    match cv with
    | some v => pure (.const_ k (some v) name ty init)
    | none => do
      let (v, ty, init) ← const_ n af k ty init
      AM.modify fun s => s.setDecl k ⟨.const_, some v⟩
      pure (.const_ k (some v) name ty init)
  | _, .let_ k _ name ty init => do
    let (t, ty, init) ← let_ n af k ty init level
    AM.modify fun s => s.setDecl k ⟨.let_, some (Value.unknownOf t)⟩
    pure (.let_ k (some (Value.unknownOf t)) name ty init)
  | _, .staticAssert k cv e =>
    match cv with
    | some v => do
      AM.assert v.isKnown
      pure (.staticAssert k (some v) e)
    | none => do
      let (v, e) ← staticAssert n af k e
      pure (.staticAssert k (some v) e)
  | inLoop, .ifThen k _ c t => do
    let c ← condition n af k c level
    let t ← stmt n af ret level inLoop t
    pure (.ifThen k (some Value.void) c t)
  | inLoop, .ifElse k _ c t e => do
    let c ← condition n af k c level
    let t ← stmt n af ret level inLoop t
    let e ← stmt n af ret level inLoop e
    pure (.ifElse k (some Value.void) c t e)
  | _, .while_ k _ c b => do
    let c ← condition n af k c level
    let b ← stmt n af ret level true b
    pure (.while_ k (some Value.void) c b)
  | inLoop, .control k cv c e =>
    match c with
    | .break_ =>
      if inLoop then pure (.control k (some Value.void) .break_ e)
      else AM.fail .break_outside_loop k
    | .continue_ =>
      if inLoop then pure (.control k (some Value.void) .continue_ e)
      else AM.fail .continue_outside_loop k
    | .return_ =>
      match e with
      | none =>
        if ret ≠ .void then AM.fail .empty_return_in_non_void_function k
        else pure (.control k (some Value.void) .return_ none)
      | some e => do
        let e ← expr n af e level .normal
        let v ← AM.value e.cv
        if ¬ v.type.isConvertibleTo ret then AM.fail (.check .incompatible_types) k
        else do
          let w ← foldResult (evalConversionV v ret) ret false k
          pure (.control k (some w) .return_ (some e))
  | _, .assign k _ name ref e =>
    match ref with
    | none => AM.throws
    | some (.builtin _) => AM.throws
    | some (.param _) => AM.fail .assigning_parameter k
    | some (.node j) => do
      let s ← AM.read
      match s.fns j with
      | some _ => AM.fail .assigning_function k
      | none =>
        match s.decl j with
        | some ⟨.const_, _⟩ => AM.fail .assigning_const k
        | some ⟨.let_, _⟩ => do
          let e ← expr n af e level .normal
          let v ← AM.value e.cv
          let s ← AM.read
          let d ← AM.value (s.decl j)
          let d ← AM.value d.cv
          if ¬ v.type.isConvertibleTo d.type then AM.fail (.check .incompatible_types) k
          else do
            let w ← foldResult (evalConversionV v d.type) d.type false k
            pure (.assign k (some w) name ref e)
        | _ => AM.throws
  | inLoop, .block k _ ss => do
    let ss ← stmts n af ret level inLoop ss
    pure (.block k (some Value.void) ss)
  | _, .call e => do
    let e ← expr n af e level .normal
    pure (.call e)

/-- The loop over the children of a block, src/bms/analyze.cpp:569-574. -/
def stmts (n : Nat) (af : Key → Level → AM Unit) (ret : CType) (level : Level) :
    Bool → List AStmt → AM (List AStmt)
  | _, [] => pure []
  | inLoop, s :: ss => do
    let s ← stmt n af ret level inLoop s
    let ss ← stmts n af ret level inLoop ss
    pure (s :: ss)

end

/-- Change the function with key `k`. -/
def updateFn (k : Key) (g : AFn → AFn) : AM Unit := do
  let s ← AM.read
  let f ← AM.value (s.fns k)
  AM.modify fun s => s.setFn k (g f)

/-- The loop over the parameters, src/bms/analyze.cpp:130-136; `before` are the parameters that are
done. -/
def params (n : Nat) (af : Key → Level → AM Unit) (k : Key) : List AParam → List AParam → AM Unit
  | _, [] => pure ()
  | before, p :: ps => do
    let ty ← type n af p.type
    let p := { p with type := ty }
    updateFn k fun f => { f with params := before ++ p :: ps }
    AM.modify fun s => s.setDecl p.k ⟨.param, ty.cv⟩
    params n af k (before ++ [p]) ps

/-- The requires-clause, src/bms/analyze.cpp:144-174. -/
def requires_ (n : Nat) (af : Key → Level → AM Unit) (k : Key) (e : AExpr) : AM Unit :=
  match e.cv with
  | some _ => pure ()
  | none => do
    let e ← expr n af e .forConst .constant
    updateFn k fun f => { f with requires_ := some e, cv := e.cv }
    AM.assert (e.cv.any Value.isKnown)
    let v ← AM.deref e.cv
    if v.type ≠ .bool then AM.fail .requires_clause_not_bool e.key
    else do
      let b ← AM.get v.asBool
      if ¬ b then AM.fail .requires_clause_not_satisfied e.key else pure ()

/-- The code of the function, src/bms/analyze.cpp:185-197. The error names the function instead of the
call in it. -/
def compile (k : Key) : AM Unit := do
  let s ← AM.read
  let f ← AM.value (s.fns k)
  let (code, a) ← AM.lift (fun (_ : GenErr) => ⟨.codegen_call_to_unanalyzed, k⟩)
    (loadFunction s.env f.node s.code)
  AM.modify fun s => { s with code := code }
  updateFn k fun f => { f with address := some a }

/-- `analyze_types` for `Function`, src/bms/analyze.cpp:105-202, of the function with key `k`. -/
def function : Nat → Key → Level → AM Unit
  | 0, _, _ => AM.timeout
  | n + 1, k, level => do
    AM.assert (level ≠ .unanalyzed)
    let s ← AM.read
    let f ← AM.value (s.fns k)
    if level.rank ≤ f.level.rank then pure ()
    else if f.generic then f.instances.forM fun i => function n i.key level
    else do
      AM.assert (f.instances = [])
      params n (function n) k [] f.params
      let ret ← type n (function n) f.ret
      updateFn k fun f => { f with ret := ret }
      AM.modify fun s => { s with stack := k :: s.stack }
      match f.requires_ with
      | some e => requires_ n (function n) k e
      | none => pure ()
      updateFn k fun f => { f with level := if f.level = .unanalyzed then .shallow else f.level }
      if Level.full.rank ≤ level.rank then do
        let t ← AM.get ret.concreteType
        let t ← AM.value t
        let body ← stmts n (function n) t level false f.body
        updateFn k fun f => { f with body := body }
      if level = .forConst then compile k
      updateFn k fun f => { f with cv := ret.cv, level := level }
      AM.modify fun s => { s with stack := s.stack.tail }

/-- `analyze_types` for the children of `Program`, src/bms/analyze.cpp:89-103. -/
def decl (n : Nat) : ADecl → AM Unit
  | .const_ k cv _ ty init =>
    match cv with
    | some _ => pure ()
    | none => do
      let (v, _, _) ← const_ n (function n) k ty init
      AM.modify fun s => s.setDecl k ⟨.const_, some v⟩
  | .staticAssert k cv e =>
    match cv with
    | some v => AM.assert v.isKnown
    | none => do
      let _ ← staticAssert n (function n) k e
      pure ()
  | .function f => function n f.k .full

/-- Global declarations one after the other. -/
def decls (n : Nat) : List ADecl → AM Unit
  | [] => pure ()
  | d :: ds => do
    decl n d
    decls n ds

/-- The state before analysis: all nodes of the program, none analyzed. -/
def initial (ds : List ADecl) (next : Nat) : ASt :=
  ds.foldl (fun s d =>
    match d with
    | .const_ k cv _ _ _ => s.setDecl k ⟨.const_, cv⟩
    | .staticAssert .. => s
    | .function f => addFunction f s)
    { decl := fun _ => none, fns := fun _ => none, code := [], stack := [], next := next }

/-- `analyze`, src/bms/analyze.cpp:1115-1127, without annotations: name lookup, then types. -/
def program (n : Nat) (ds : List ADecl) (next : Nat) : ARes Unit :=
  match Names.program ds with
  | .ok ds => decls n ds (initial ds next)
  | .err e => .err e
  | .throws => .throws
  | .ub => .ub

end Ana

end Bms
