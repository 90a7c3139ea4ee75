import Verif.Model.MapStack
import Verif.Model.Operations

/-!
# The virtual machine

Transcribes src/bms/vm/instructions.hpp, src/bms/vm/execution_error.hpp, src/bms/vm/vm.hpp and
src/bms/vm/vm.cpp. Debug information carried by instructions and errors is left out. Vectors that
are used as stacks are lists whose head is the back of the vector.
-/

namespace Bms

/-- `Instruction`, src/bms/vm/instructions.hpp:23-138. -/
inductive Instr where
  | load (source : Key)
  | store (target : Key)
  | push (value : CVal)
  | pop
  | jump (offset : Int)
  | jumpIf (offset : Int) (expected : Bool)
  | break_
  | continue_
  | ret
  | convert (type : CType)
  | unary (op : ExprType)
  | binary (op : ExprType)
  | call (address : Nat)
  | builtin (function : Builtin)
deriving DecidableEq, Repr

/-- `Execution_Error_Code`, src/bms/vm/execution_error.hpp:12-22, together with the
`Evaluation_Error_Code` for the code `evaluation` (l.41-67). -/
inductive ExecErr where
  | load_uninitialized
  | pop
  | pop_call
  | evaluation (e : EvalErr)
  | jump_out_of_program
  | jump_if_not_bool
  | symbolic_jump
  | call_out_of_program
  | infinite_loop
deriving DecidableEq, Repr

/-- The data members of `Virtual_Machine`, src/bms/vm/vm.hpp:20-25. `cmp` is
`m_comparison_failure_for_assert`. -/
structure Vm where
  instructions : List Instr
  frames : List Entry
  stack : List CVal
  counter : Nat
  cmp : Option (CVal × CVal × ExprType)
deriving DecidableEq, Repr

namespace Vm

/-- Construction, src/bms/vm/vm.hpp:28-34. -/
def initial : Vm := ⟨[], [], [], 0, none⟩

/-- `add_instructions`, src/bms/vm/vm.hpp:51-56. -/
def addInstructions (vm : Vm) (is : List Instr) : Nat × Vm :=
  (vm.instructions.length, { vm with instructions := vm.instructions ++ is })

/-- `push`, src/bms/vm/vm.hpp:63-66. -/
def pushValue (vm : Vm) (v : CVal) : Vm := { vm with stack := v :: vm.stack }

/-- `pop`, src/bms/vm/vm.hpp:70-75; `back()` of an empty vector is undefined. -/
def popValue {ε : Type} (vm : Vm) : Outcome ε (CVal × Vm) :=
  match vm.stack with
  | [] => .ub
  | v :: s => .ok (v, { vm with stack := s })

/-- `jump_to`, src/bms/vm/vm.hpp:79-83. -/
def jumpTo {ε : Type} (vm : Vm) (address : Nat) : Outcome ε Vm :=
  if address < vm.instructions.length then .ok { vm with counter := address } else .throws

/-- `reset`, src/bms/vm/vm.hpp:95-100; the comparison failure is kept. -/
def reset (vm : Vm) : Vm := { vm with frames := [], stack := [], counter := 0 }

/-- `clear`, src/bms/vm/vm.hpp:102-106. -/
def clear (vm : Vm) : Vm := { vm with instructions := [] }.reset

/-- The target of a relative jump: `Signed_Size(m_instruction_counter) + offset + 1`,
src/bms/vm/vm.cpp:62-67. Counters below 2^63 are assumed, so that the cast is exact. -/
abbrev target (vm : Vm) (offset : Int) : Int := vm.counter + offset + 1

/-- The cast of a (possibly negative) signed number to `Size`. -/
def toSize (x : Int) : Nat := (x % 2 ^ 64).toNat

/-- `Cycle_Impl::operator()`, src/bms/vm/vm.cpp:17-206: the state of the machine afterwards and the
result. -/
def exec (vm : Vm) : Instr → Vm × Outcome ExecErr Unit
  -- l.20-29
  | .load source =>
    match MapStack.lookup vm.frames source with
    | .ok none => (vm, .err .load_uninitialized)
    | .ok (some v) => ({ vm with stack := v :: vm.stack, counter := vm.counter + 1 }, .ok ())
    | .err e => (vm, .err e)
    | .throws => (vm, .throws)
    | .ub => (vm, .ub)
  -- l.31-41
  | .store target =>
    match vm.stack with
    | [] => (vm, .err .pop)
    | v :: s =>
      match MapStack.assign vm.frames target v with
      | .ok frames => ({ vm with stack := s, frames := frames, counter := vm.counter + 1 }, .ok ())
      | .err e => ({ vm with stack := s }, .err e)
      | .throws => ({ vm with stack := s }, .throws)
      | .ub => ({ vm with stack := s }, .ub)
  -- l.43-48
  | .push value => ({ vm with stack := value :: vm.stack, counter := vm.counter + 1 }, .ok ())
  -- l.50-58
  | .pop =>
    match vm.stack with
    | [] => (vm, .err .pop)
    | _ :: s => ({ vm with stack := s, counter := vm.counter + 1 }, .ok ())
  -- l.60-69
  | .jump offset =>
    if vm.target offset ≥ vm.instructions.length then (vm, .err .jump_out_of_program)
    else ({ vm with counter := toSize (vm.target offset) }, .ok ())
  -- l.71-90
  | .jumpIf offset expected =>
    match vm.stack with
    | [] => (vm, .err .pop)
    | actual :: s =>
      if actual.type ≠ .bool then ({ vm with stack := s }, .err .jump_if_not_bool)
      else if vm.target offset ≥ vm.instructions.length then
        ({ vm with stack := s }, .err .jump_out_of_program)
      else
        ({ vm with
            stack := s
            counter := toSize (vm.target (if expected = decide (actual.int ≠ 0) then offset else 0)) },
          .ok ())
  -- l.92-100
  | .ret =>
    match MapStack.popFrame vm.frames with
    | none => (vm, .err .pop_call)
    | some (v, frames) => ({ vm with frames := frames, counter := toSize v.int }, .ok ())
  -- l.102-117
  | .convert type =>
    match vm.stack with
    | [] => (vm, .err .pop)
    | operand :: s =>
      match evalConversion operand type with
      | .ok v => ({ vm with stack := v :: s, counter := vm.counter + 1 }, .ok ())
      | .err e => ({ vm with stack := s }, .err (.evaluation e))
      | .throws => ({ vm with stack := s }, .throws)
      | .ub => ({ vm with stack := s }, .ub)
  -- l.119-134
  | .unary op =>
    match vm.stack with
    | [] => (vm, .err .pop)
    | operand :: s =>
      match evalUnary op operand with
      | .ok v => ({ vm with stack := v :: s, counter := vm.counter + 1 }, .ok ())
      | .err e => ({ vm with stack := s }, .err (.evaluation e))
      | .throws => ({ vm with stack := s }, .throws)
      | .ub => ({ vm with stack := s }, .ub)
  -- l.136-161
  | .binary op =>
    match vm.stack with
    | rhs :: lhs :: s =>
      match evalBinary lhs op rhs with
      | .ok v =>
        let cmp := if vm.instructions[vm.counter + 1]? = some (.builtin .assert) then
            some (lhs, rhs, op) else vm.cmp
        ({ vm with stack := v :: s, counter := vm.counter + 1, cmp := cmp }, .ok ())
      | .err e => ({ vm with stack := s }, .err (.evaluation e))
      | .throws => ({ vm with stack := s }, .throws)
      | .ub => ({ vm with stack := s }, .ub)
    | _ => (vm, .err .pop)
  -- l.163-172
  | .call address =>
    if address > vm.instructions.length then (vm, .err .call_out_of_program)
    else
      ({ vm with
          frames := MapStack.pushFrame vm.frames (CVal.ofInt (vm.counter + 1))
          counter := address },
        .ok ())
  -- l.174-195; the span covers the `params` topmost values, in the order they were pushed
  | .builtin f =>
    let params := f.paramTypes.length
    if params > vm.stack.length then (vm, .err .pop)
    else
      match evalBuiltin f (vm.stack.take params).reverse with
      | .ok v =>
        ({ vm with stack := v :: vm.stack.drop params, counter := vm.counter + 1 }, .ok ())
      | .err e => (vm, .err (.evaluation e))
      | .throws => (vm, .throws)
      | .ub => (vm, .ub)
  -- l.197-205
  | .break_ => (vm, .err .symbolic_jump)
  | .continue_ => (vm, .err .symbolic_jump)

/-- `Virtual_Machine::cycle`, src/bms/vm/vm.cpp:208-220. -/
def cycle (vm : Vm) : Vm × Outcome ExecErr Unit :=
  match vm.instructions[vm.counter]? with
  | none => (vm, .throws)
  | some next =>
    match vm.exec next with
    | (vm', .ok ()) => if vm'.counter = vm.counter then (vm', .err .infinite_loop) else (vm', .ok ())
    | r => r

/-- The `comparison_failure` member of the error that a cycle returns, src/bms/vm/vm.cpp:182-190: set
for errors of `assert` to the comparison that is stored in the machine, unset for all others. -/
def comparisonOfError (vm : Vm) : Option (CVal × CVal × ExprType) :=
  match vm.instructions[vm.counter]?, vm.cycle with
  | some (.builtin .assert), (_, .err (.evaluation _)) => vm.cmp
  | _, _ => none

/-- `while (cycle_result = cycle()) { }` (src/bms/analyze.cpp:954-955), at most `n` cycles: the
state after the first cycle that does not succeed, and its result; `none` if all `n` succeed. -/
def run (vm : Vm) : Nat → Option (Vm × Outcome ExecErr Unit)
  | 0 => none
  | n + 1 =>
    match vm.cycle with
    | (vm', .ok ()) => run vm' n
    | r => some r

/-- The state after `n` successful cycles. -/
def steps (vm : Vm) : Nat → Option Vm
  | 0 => some vm
  | n + 1 =>
    match vm.cycle with
    | (vm', .ok ()) => steps vm' n
    | _ => none

end Vm

end Bms
