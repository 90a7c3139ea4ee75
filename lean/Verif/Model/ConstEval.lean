import Verif.Model.Codegen

/-!
# Loading functions into the machine, and constant evaluation of calls

Transcribes the parts of src/bms/analyze.cpp that put the code of functions into the virtual machine
and run it.
-/

namespace Bms

/-- The end of `analyze_types` for a function at level `for_constant_evaluation`,
src/bms/analyze.cpp:184-195: the code of the function is appended to the program, and its address is
the number of instructions before. On success: the new program and the address. -/
def loadFunction (env : FnEnv) (f : FunctionNode) (prog : List Instr) :
    Outcome GenErr (List Instr × Nat) :=
  match Gen.function env f prog with
  | (prog', .ok ()) => .ok (prog', prog.length)
  | (_, .err e) => .err e
  | (_, .throws) => .throws
  | (_, .ub) => .ub

/-- A call of a function in a constant expression, src/bms/analyze.cpp:919-924, 941, 947-963, with
arguments that are converted to the parameter types already: reset the machine, jump to the function,
push the arguments, run until an error occurs, which must be `pop_call`, and pop the only value of the
stack. `none`: more than `n` cycles. -/
def constantCall (vm : Vm) (address : Nat) (args : List CVal) (n : Nat) :
    Option (Outcome ExecErr CVal) :=
  match vm.reset.jumpTo (ε := ExecErr) address with
  | .ok vm =>
    match (args.foldl Vm.pushValue vm).run n with
    | none => none
    | some (vm, .err e) =>
      if e ≠ .pop_call then some (.err e)
      else if vm.stack.length ≠ 1 then some .throws
      else some ((vm.popValue).map Prod.fst)
    | some (_, .throws) => some .throws
    | some (_, .ub) => some .ub
    | some (_, .ok ()) => some .throws
  | .err e => some (.err e)
  | .throws => some .throws
  | .ub => some .ub

end Bms
