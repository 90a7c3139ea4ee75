import Verif.Model.Ast
import Verif.Spec.Vm

/-!
# Specification: what a program means

A reference semantics of functions on their syntax tree, with no reference to instructions: an
expression has a value in an environment of variables, a statement changes the environment, breaks,
continues or returns. Of the annotations that analysis leaves in the tree, only types are used (the
type of a conditional expression and of declared variables), never values; the exception is an
identifier without a referenced declaration, which is a width of a generic function and has no other
meaning than its value. Operators and conversions are the evaluation functions that C01 to C13 are
about.
-/

namespace Bms.Spec

/-- The result of running something. `timeout`: did not finish with the given fuel. `stuck`: the
tree is ill-typed or the end of a function with a result was reached. -/
inductive Res (α : Type) where
  | ok (a : α)
  | fails (e : ExecErr)
  | throws
  | ub
  | timeout
  | stuck
deriving DecidableEq, Repr

/-- First the one, then the other. -/
def Res.bind {α β : Type} : Res α → (α → Res β) → Res β
  | .ok a, f => f a
  | .fails e, _ => .fails e
  | .throws, _ => .throws
  | .ub, _ => .ub
  | .timeout, _ => .timeout
  | .stuck, _ => .stuck

instance : Monad Res where
  pure := .ok
  bind := Res.bind

/-- The result of an operation on values. -/
def Res.ofOutcome : Outcome EvalErr CVal → Res CVal
  | .ok v => .ok v
  | .err e => .fails (.evaluation e)
  | .throws => .throws
  | .ub => .ub

/-- A truth value. -/
def asBool (v : CVal) : Res Bool := if v.type = .bool then .ok (decide (v.int ≠ 0)) else .stuck

/-- The value of a variable. -/
def readVar (σ : Frame) (k : Key) : Res CVal :=
  match σ k with
  | some v => .ok v
  | none => .fails .load_uninitialized

/-- The value of a literal. -/
def litValue : Lit → Option CVal
  | .true_ => some CVal.tt
  | .false_ => some CVal.ff
  | .integer text => (parseIntegerLiteral text).map CVal.ofInt

/-- What surrounds an expression: values of constants, parameter types of functions, and what a call
of a function results in. -/
structure Meaning where
  consts : Key → Option CVal
  params : Key → Option (List CType)
  call : Key → List CVal → Res CVal

mutual

/-- The value of an expression. Operands and arguments are evaluated from left to right; each
argument is converted to the type of its parameter; `&&` and `||` evaluate the right operand only if
the left one does not decide; a conditional expression evaluates the condition and then one of the
branches. -/
def evalE (M : Meaning) : Expr → Frame → Res CVal
  | .literal l _, _ =>
    match litValue l with
    | some v => .ok v
    | none => .stuck
  | .id cv ref, σ =>
    match ref with
    | some (.node k) =>
      match M.consts k with
      | some v => .ok v
      | none => readVar σ k
    | some (.param k) => readVar σ k
    | some (.builtin _) => .stuck
    | none =>
      match cv with
      | some ⟨t, some x⟩ => .ok ⟨t, x⟩
      | _ => .stuck
  | .conversion _ e to, σ =>
    evalE M e σ >>= fun v =>
      match to with
      | some t => .ofOutcome (evalConversion v t)
      | none => .stuck
  | .ite cv left cond right, σ =>
    evalE M cond σ >>= asBool >>= fun b =>
      (if b then evalE M left σ else evalE M right σ) >>= fun v =>
        match cv with
        | some w => .ofOutcome (evalConversion v w.type)
        | none => .stuck
  | .binary _ op left right, σ =>
    if op = .logical_and then
      evalE M left σ >>= asBool >>= fun b =>
        if b then evalE M right σ >>= asBool >>= fun b => .ok (CVal.ofBool b) else .ok CVal.ff
    else if op = .logical_or then
      evalE M left σ >>= asBool >>= fun b =>
        if b then .ok CVal.tt else evalE M right σ >>= asBool >>= fun b => .ok (CVal.ofBool b)
    else
      evalE M left σ >>= fun x => evalE M right σ >>= fun y => .ofOutcome (evalBinary x op y)
  | .prefix _ op e, σ => evalE M e σ >>= fun x => .ofOutcome (evalUnary op x)
  | .call _ _ ref args, σ =>
    match ref with
    | some (.node k) =>
      match M.params k with
      | some ts => evalArgs M ts args σ >>= M.call k
      | none => .stuck
    | some (.builtin f) => evalArgs M f.paramTypes args σ >>= fun vs => .ofOutcome (evalBuiltin f vs)
    | _ => .stuck

/-- The values of arguments for parameters of the given types. -/
def evalArgs (M : Meaning) : List CType → List Expr → Frame → Res (List CVal)
  | [], [], _ => .ok []
  | t :: ts, e :: es, σ =>
    evalE M e σ >>= fun v => Res.ofOutcome (evalConversion v t) >>= fun v =>
      evalArgs M ts es σ >>= fun vs => .ok (v :: vs)
  | _, _, _ => .stuck

end

/-- How a statement ends. -/
inductive Flow where
  | normal (σ : Frame)
  | break_ (σ : Frame)
  | continue_ (σ : Frame)
  | return_ (v : CVal)

/-- The environment without a variable. -/
def Frame.unset (σ : Frame) (k : Key) : Frame := fun j => if j = k then none else σ j

/-- `while`, with fuel for that many evaluations of the condition. -/
def whileLoop (cond : Frame → Res Bool) (body : Frame → Res Flow) : Nat → Frame → Res Flow
  | 0, _ => .timeout
  | n + 1, σ =>
    cond σ >>= fun b =>
      if b then
        body σ >>= fun
          | .normal σ => whileLoop cond body n σ
          | .continue_ σ => whileLoop cond body n σ
          | .break_ σ => .ok (.normal σ)
          | .return_ v => .ok (.return_ v)
      else .ok (.normal σ)

mutual

/-- The effect of a statement, in a function with result type `ret`. A declared variable without
initializer has no value; values are converted to the type of the variable they are stored in, and to
the result type of the function. -/
def execS (M : Meaning) (ret : CType) (fuel : Nat) : Stmt → Frame → Res Flow
  | .const_ _ _ _ _, σ => .ok (.normal σ)
  | .let_ k _ cv init, σ =>
    match init with
    | none => .ok (.normal (σ.unset k))
    | some e =>
      evalE M e σ >>= fun v =>
        match cv with
        | some w => Res.ofOutcome (evalConversion v w.type) >>= fun v => .ok (.normal (σ.set k v))
        | none => .stuck
  | .staticAssert _ _, σ => .ok (.normal σ)
  | .ifThen cond then_, σ =>
    evalE M cond σ >>= asBool >>= fun b =>
      if b then execS M ret fuel then_ σ else .ok (.normal σ)
  | .ifElse cond then_ else_, σ =>
    evalE M cond σ >>= asBool >>= fun b =>
      if b then execS M ret fuel then_ σ else execS M ret fuel else_ σ
  | .while_ cond body, σ =>
    whileLoop (fun σ => evalE M cond σ >>= asBool) (fun σ => execS M ret fuel body σ) fuel σ
  | .control c _ e, σ =>
    match c, e with
    | .break_, _ => .ok (.break_ σ)
    | .continue_, _ => .ok (.continue_ σ)
    | .return_, none => .ok (.return_ CVal.void)
    | .return_, some e =>
      evalE M e σ >>= fun v => Res.ofOutcome (evalConversion v ret) >>= fun v => .ok (.return_ v)
  | .assign cv target e, σ =>
    match cv, target with
    | some w, some (.node k) =>
      evalE M e σ >>= fun v => Res.ofOutcome (evalConversion v w.type) >>= fun v =>
        .ok (.normal (σ.set k v))
    | _, _ => .stuck
  | .block ss, σ => execSs M ret fuel ss σ
  | .call e, σ => evalE M e σ >>= fun _ => .ok (.normal σ)

/-- Statements one after the other. -/
def execSs (M : Meaning) (ret : CType) (fuel : Nat) : List Stmt → Frame → Res Flow
  | [], σ => .ok (.normal σ)
  | s :: ss, σ =>
    execS M ret fuel s σ >>= fun
      | .normal σ => execSs M ret fuel ss σ
      | f => .ok f

end

/-- A function: its parameters with their types, its result type and the statements of its body. -/
structure FnDef where
  params : List (Key × CType)
  ret : CType
  body : List Stmt

/-- A program: functions and the values of constants. -/
structure Prog where
  fns : Key → Option FnDef
  consts : Key → Option CVal

/-- The variables of a call: every parameter has the value of its argument. -/
def bindParams : List (Key × CType) → List CVal → Frame
  | (k, _) :: ps, v :: vs => (bindParams ps vs).set k v
  | _, _ => Frame.empty

/-- The result of a call from how its body ended. -/
def finish (ret : CType) : Flow → Res CVal
  | .return_ v => .ok v
  | .normal _ => if ret = .void then .ok CVal.void else .stuck
  | _ => .stuck

/-- The meaning of a program, given that of its calls. -/
def Prog.meaning (P : Prog) (call : Key → List CVal → Res CVal) : Meaning where
  consts := P.consts
  params k := (P.fns k).map fun f => f.params.map Prod.snd
  call := call

/-- What a call of a function with the given arguments results in, with fuel for nested calls and
iterations of loops. -/
def Prog.callN (P : Prog) : Nat → Key → List CVal → Res CVal
  | 0, _, _ => .timeout
  | n + 1, k, vs =>
    match P.fns k with
    | none => .stuck
    | some f =>
      if vs.length = f.params.length then
        execSs (P.meaning (P.callN n)) f.ret (n + 1) f.body (bindParams f.params vs) >>= finish f.ret
      else .stuck

end Bms.Spec
