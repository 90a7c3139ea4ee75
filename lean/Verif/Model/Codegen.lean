import Verif.Model.Ast
import Verif.Model.Vm

/-!
# Code generation

Transcribes src/bms/vm/codegen.cpp. The instruction vector `out` is a list with its front first;
every function takes it and returns its contents afterwards together with the result. Debug
information in instructions is left out. The recursion `generate_code(h)` over `Some_Node` is split
by the kinds of nodes that can occur: expressions and statements.
-/

namespace Bms

/-- The only error that code generation reports: `Analysis_Error_Code::codegen_call_to_unanalyzed`,
src/bms/vm/codegen.cpp:483-489. -/
inductive GenErr where
  | call_to_unanalyzed
deriving DecidableEq, Repr

/-- What code generation reads of a called `ast::Function`: the `const_value()` of its parameter
types, `was_analyzed()`, and `vm_address` (`none` for `invalid_vm_address`). -/
structure FnInfo where
  params : List (Option Value)
  analyzed : Bool
  address : Option Nat

/-- The functions of the program by the address of their node; `none` for nodes of other kinds. -/
abbrev FnEnv := Key → Option FnInfo

/-- Contents of `out` afterwards, and the result. -/
abbrev GenResult := List Instr × Outcome GenErr Unit

namespace Gen

/-- `out.push_back(i)`. -/
def emit (i : Instr) (out : List Instr) : GenResult := (out ++ [i], .ok ())

/-- `if (!r) { return r; }`, then the rest. -/
def andThen (r : GenResult) (f : List Instr → GenResult) : GenResult :=
  match r with
  | (out, .ok ()) => f out
  | r => r

/-- `if (!r) { restore(); return r; }`: on error, cut `out` back to a remembered size. -/
def restoring (size : Nat) (r : GenResult) : GenResult :=
  match r with
  | (out, .err e) => if size ≤ out.length then (out.take size, .err e) else (out, .throws)
  | r => r

/-- `get<ins::Relative_Jump_If>(out[i]).offset = offset;`: throws for another instruction. -/
def patchJumpIf (i : Nat) (offset : Int) (out : List Instr) : GenResult :=
  match out[i]? with
  | some (.jumpIf _ expected) => (out.set i (.jumpIf offset expected), .ok ())
  | some _ => (out, .throws)
  | none => (out, .ub)

/-- `get<ins::Relative_Jump>(out[i]).offset = offset;`. -/
def patchJump (i : Nat) (offset : Int) (out : List Instr) : GenResult :=
  match out[i]? with
  | some (.jump _) => (out.set i (.jump offset), .ok ())
  | some _ => (out, .throws)
  | none => (out, .ub)

/-- `BIT_MANIPULATION_ASSERT(node.const_value()); if (node.const_value()->is_known()) { push;
return; }`, then the rest. -/
def folded (cv : Option Value) (rest : List Instr → GenResult) (out : List Instr) : GenResult :=
  match cv with
  | none => (out, .throws)
  | some ⟨t, some x⟩ => emit (.push ⟨t, x⟩) out
  | some ⟨_, none⟩ => rest out

/-- `to_target`, src/bms/vm/codegen.cpp:34-43, after `lookup_result.value()`. -/
def toTarget : Option Lookup → Outcome GenErr Key
  | some (.node k) => .ok k
  | some (.param k) => .ok k
  | _ => .throws

/-- `get_parameter_type`, src/bms/vm/codegen.cpp:15-32, after `lookup_result.value()`. -/
def paramType (env : FnEnv) (ref : Option Lookup) (i : Nat) : Outcome GenErr CType :=
  match ref with
  | some (.node k) =>
    match env k with
    | some f =>
      match f.params[i]? with
      | some (some v) => .ok v.type
      | _ => .throws
    | none => .throws
  | some (.builtin f) =>
    match f.paramTypes[i]? with
    | some t => .ok t
    | none => .throws
  | _ => .throws

/-- The conversion of argument `i` to the type of the parameter, src/bms/vm/codegen.cpp:471-475. -/
def convertArg (env : FnEnv) (ref : Option Lookup) (i : Nat) (arg : Expr) (out : List Instr) :
    GenResult :=
  match arg.cv with
  | none => (out, .throws)
  | some v =>
    match paramType env ref i with
    | .ok t => if v.type ≠ t then emit (.convert t) out else (out, .ok ())
    | .err e => (out, .err e)
    | .throws => (out, .throws)
    | .ub => (out, .ub)

/-- The call instruction, src/bms/vm/codegen.cpp:478-498. -/
def callInstr (env : FnEnv) (ref : Option Lookup) (out : List Instr) : GenResult :=
  match ref with
  | some (.node k) =>
    match env k with
    | some f =>
      match f.analyzed, f.address with
      | true, some a => emit (.call a) out
      | _, _ => (out, .err .call_to_unanalyzed)
    | none => (out, .ok ())
  | some (.builtin f) => emit (.builtin f) out
  | _ => (out, .throws)

/-- `&&` and `||`. -/
def isShortCircuit (op : ExprType) : Bool := op = .logical_and || op = .logical_or

mutual

/-- `generate_code` for expressions: `Literal` src/bms/vm/codegen.cpp:516-523, `Id_Expression`
l.505-514, `Conversion_Expression` l.310-327, `If_Expression` l.329-370, `Binary_Expression`
l.372-431, `Prefix_Expression` l.433-448, `Function_Call_Expression` l.450-503. -/
def expr (env : FnEnv) : Expr → List Instr → GenResult
  | .literal _ cv, out => folded cv (fun out => (out, .throws)) out
  | .id cv ref, out =>
    folded cv (fun out =>
      match toTarget ref with
      | .ok k => emit (.load k) out
      | .err e => (out, .err e)
      | .throws => (out, .throws)
      | .ub => (out, .ub)) out
  | .conversion cv e to, out =>
    folded cv (fun out =>
      andThen (expr env e out) fun out =>
        match to with
        | some t => emit (.convert t) out
        | none => (out, .throws)) out
  | .ite cv left cond right, out =>
    folded cv (fun out =>
      let initial := out.length
      andThen (expr env cond out) fun out =>
        let toRight := out.length
        andThen (emit (.jumpIf 0 false) out) fun out =>
          let beforeLeft := out.length
          andThen (restoring initial (expr env left out)) fun out =>
            andThen (patchJumpIf toRight (out.length - beforeLeft + 1) out) fun out =>
              let pastRight := out.length
              andThen (emit (.jump 0) out) fun out =>
                let beforeRight := out.length
                andThen (restoring initial (expr env right out)) fun out =>
                  patchJump pastRight (out.length - beforeRight) out) out
  | .binary cv op left right, out =>
    folded cv (fun out =>
      let initial := out.length
      andThen (expr env left out) fun out =>
        if isShortCircuit op then
          let breaker := op = .logical_or
          let toBreak := out.length
          andThen (emit (.jumpIf 0 breaker) out) fun out =>
            let beforeRight := out.length
            andThen (restoring initial (expr env right out)) fun out =>
              andThen (patchJumpIf toBreak (out.length - beforeRight + 1) out) fun out =>
                andThen (emit (.jump 1) out) fun out =>
                  emit (.push (CVal.ofBool breaker)) out
        else
          andThen (restoring initial (expr env right out)) fun out =>
            emit (.binary op) out) out
  | .prefix cv op e, out =>
    folded cv (fun out => andThen (expr env e out) fun out => emit (.unary op) out) out
  | .call cv stmt ref arguments, out =>
    match cv with
    | none => (out, .throws)
    | some ⟨t, some x⟩ => if stmt then (out, .ok ()) else emit (.push ⟨t, x⟩) out
    | some ⟨_, none⟩ =>
      andThen (args env ref out.length 0 arguments out) fun out =>
        andThen (callInstr env ref out) fun out =>
          if stmt then emit .pop out else (out, .ok ())

/-- The loop over the arguments of a call, src/bms/vm/codegen.cpp:464-476, from argument `i` on. -/
def args (env : FnEnv) (ref : Option Lookup) (restoreSize : Nat) :
    Nat → List Expr → List Instr → GenResult
  | _, [], out => (out, .ok ())
  | i, e :: es, out =>
    andThen (restoring restoreSize (expr env e out)) fun out =>
      andThen (convertArg env ref i e out) fun out =>
        args env ref restoreSize (i + 1) es out

end

/-- The loop that replaces `Break` and `Continue` in the body of a loop,
src/bms/vm/codegen.cpp:226-235: instructions from `start` on; `initial` is where the code of the
whole loop starts. The loop changes instructions in place and does not change the size. -/
def resolveLoop (initial start : Nat) (out : List Instr) : List Instr :=
  out.mapIdx fun i ins =>
    if i < start then ins
    else match ins with
      | .break_ => .jump (out.length - i)
      | .continue_ => .jump (-(i - initial : Int) - 1)
      | ins => ins

/-- `return` with the value of the statement, src/bms/vm/codegen.cpp:258-281; `ret` is
`m_return_type`. -/
def return_ (env : FnEnv) (ret : CType) (cv : Value) (e : Option Expr) (out : List Instr) :
    GenResult :=
  if cv.type ≠ ret then (out, .throws)
  else match cv.val with
    | some x => andThen (emit (.push ⟨cv.type, x⟩) out) (emit .ret)
    | none =>
      match e with
      | none => (out, .throws)
      | some e =>
        andThen (expr env e out) fun out =>
          match e.cv with
          | none => (out, .throws)
          | some v =>
            andThen (if v.type ≠ ret then emit (.convert ret) out else (out, .ok ())) (emit .ret)

mutual

/-- `generate_code` for statements: `Const` src/bms/vm/codegen.cpp:129-135, `Let` l.137-149,
`Static_Assert` l.151-156, `If_Statement` l.158-198, `While_Statement` l.200-240,
`Control_Statement` l.242-282, `Assignment` l.284-293, `Block_Statement` l.295-308, and
`Function_Call_Expression` used as statement. -/
def stmt (env : FnEnv) (ret : Option CType) : Stmt → List Instr → GenResult
  | .const_ _ _ cv _, out => (out, if cv.isSome then .ok () else .throws)
  | .let_ k _ cv init, out =>
    match cv with
    | none => (out, .throws)
    | some _ =>
      match init with
      | none => (out, .ok ())
      | some e => andThen (expr env e out) (emit (.store k))
  | .staticAssert cv _, out => (out, if cv.isSome then .ok () else .throws)
  | .ifThen cond then_, out =>
    let initial := out.length
    andThen (expr env cond out) fun out =>
      let toElse := out.length
      andThen (emit (.jumpIf 0 false) out) fun out =>
        let beforeIf := out.length
        andThen (restoring initial (stmt env ret then_ out)) fun out =>
          patchJumpIf toElse (out.length - beforeIf) out
  | .ifElse cond then_ else_, out =>
    let initial := out.length
    andThen (expr env cond out) fun out =>
      let toElse := out.length
      andThen (emit (.jumpIf 0 false) out) fun out =>
        let beforeIf := out.length
        andThen (restoring initial (stmt env ret then_ out)) fun out =>
          andThen (patchJumpIf toElse (out.length - beforeIf + 1) out) fun out =>
            let pastElse := out.length
            andThen (emit (.jump 0) out) fun out =>
              let beforeElse := out.length
              andThen (restoring initial (stmt env ret else_ out)) fun out =>
                patchJump pastElse (out.length - beforeElse) out
  | .while_ cond body, out =>
    let initial := out.length
    andThen (expr env cond out) fun out =>
      let pastLoop := out.length
      andThen (emit (.jumpIf 0 false) out) fun out =>
        let beforeBlock := out.length
        andThen (restoring initial (stmt env ret body out)) fun out =>
          andThen (patchJumpIf pastLoop (out.length - beforeBlock + 1) out) fun out =>
            emit (.jump (-(out.length - initial + 1 : Int))) (resolveLoop initial beforeBlock out)
  | .control c cv e, out =>
    match ret, cv with
    | some ret, some cv =>
      match c with
      | .break_ => emit .break_ out
      | .continue_ => emit .continue_ out
      | .return_ => return_ env ret cv e out
    | _, _ => (out, .throws)
  | .assign cv target e, out =>
    match cv with
    | none => (out, .throws)
    | some _ =>
      andThen (expr env e out) fun out =>
        match toTarget target with
        | .ok k => emit (.store k) out
        | .err e => (out, .err e)
        | .throws => (out, .throws)
        | .ub => (out, .ub)
  | .block ss, out => stmts env ret out.length ss out
  | .call e, out => expr env e out

/-- The loop over the children of a block, src/bms/vm/codegen.cpp:299-306. -/
def stmts (env : FnEnv) (ret : Option CType) (initial : Nat) :
    List Stmt → List Instr → GenResult
  | [], out => (out, .ok ())
  | s :: ss, out =>
    andThen (restoring initial (stmt env ret s out)) fun out => stmts env ret initial ss out

end

/-- `get_if<ast::Control_Statement>(n)`, src/bms/vm/codegen.cpp:106. -/
def controlOf : Stmt → Option Control
  | .control c _ _ => some c
  | _ => none

/-- `returns_unconditionally`, src/bms/vm/codegen.cpp:104-113: the last control statement among the
children must be a `return`. -/
def returnsUnconditionally (body : List Stmt) : Outcome GenErr Bool :=
  match body.reverse.findSome? controlOf with
  | some .return_ => .ok true
  | some _ => .throws
  | none => .ok false

/-- `generate_code` for functions, src/bms/vm/codegen.cpp:74-121. -/
def function (env : FnEnv) (f : FunctionNode) (out : List Instr) : GenResult :=
  let restoreSize := out.length
  let out := out ++ (f.params.reverse.map Instr.store)
  if ¬ f.retAnalyzed then (out, .throws)
  else
    andThen (restoring restoreSize (stmt env f.ret (.block f.body) out)) fun out =>
      if f.ret ≠ some .void then (out, .ok ())
      else match returnsUnconditionally f.body with
        | .ok true => (out, .ok ())
        | .ok false => andThen (emit (.push CVal.void) out) (emit .ret)
        | .err e => (out, .err e)
        | .throws => (out, .throws)
        | .ub => (out, .ub)

end Gen

end Bms
