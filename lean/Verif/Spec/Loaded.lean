import Verif.Model.ConstEval
import Verif.Spec.Static

/-!
# Specification: programs in the machine

Which instructions the machine contains after functions of a program have been compiled one after
the other, in any order that code generation accepts.
-/

namespace Bms.Spec

/-- The tree of a function as code generation sees it. -/
def FnDef.node (f : FnDef) : FunctionNode where
  params := f.params.map Prod.fst
  retAnalyzed := true
  ret := some f.ret
  body := f.body

/-- What code generation knows about the functions of a program, if those with an address have been
compiled. -/
def Prog.env (P : Prog) (addr : Key → Option Nat) : FnEnv := fun k =>
  (P.fns k).map fun f =>
    { params := f.params.map fun p => some (Value.unknownOf p.2)
      analyzed := (addr k).isSome
      address := addr k }

/-- `prog` is the code of the functions that have an address. -/
inductive Loaded (P : Prog) : (Key → Option Nat) → List Instr → Prop
  | empty : Loaded P (fun _ => none) []
  | add {addr : Key → Option Nat} {prog prog' : List Instr} {k : Key} {f : FnDef} {a : Nat} :
      Loaded P addr prog → P.fns k = some f → addr k = none →
      loadFunction (P.env addr) f.node prog = .ok (prog', a) →
      Loaded P (fun j => if j = k then some a else addr j) prog'

/-- No conditional jump leads to the end of the program. (The machine rejects conditional jumps to
there even if they are not taken.) -/
def BranchesInside (prog : List Instr) : Prop :=
  ∀ (i : Nat) (o : Int) (b : Bool), prog[i]? = some (.jumpIf o b) → i + o + 1 < prog.length

/-- All bodies of functions are homogeneous: see `HomogeneousS`. -/
def Prog.Homogeneous (P : Prog) : Prop := ∀ k f, P.fns k = some f → HomogeneousSs f.body

/-- In all functions, variables that are declared without initializer are declared outside of loops
and not assigned before. -/
def Prog.Fresh (P : Prog) : Prop :=
  ∀ k f, P.fns k = some f → FreshAll f.body ∧
    ∀ j ∈ uninitializedAll f.body, j ∉ f.params.map Prod.fst

/-- The outcome of a finished computation. -/
def Res.outcome {α : Type} : Res α → Option (Outcome ExecErr α)
  | .ok a => some (.ok a)
  | .fails e => some (.err e)
  | .throws => some .throws
  | .ub => some .ub
  | .timeout => none
  | .stuck => none

/-- The machine, started in state `vm`, has the result `r`: for a value it gets to a state with `K`;
otherwise it gets to a state in which the next cycle has the outcome, or, if `r` is a timeout, `n`
cycles succeed. Reading variables without value is reported for sure only if `strict`. -/
def Runs (strict : Prop) (n : Nat) (vm : Vm) {α : Type} (r : Res α) (K : α → Vm → Prop) : Prop :=
  match r with
  | .ok a => ∃ m vm', vm.steps m = some vm' ∧ vm'.instructions = vm.instructions ∧ K a vm'
  | .fails e => (e = .load_uninitialized → strict) →
      ∃ m vm', vm.steps m = some vm' ∧ vm'.cycle.2 = .err e
  | .throws => ∃ m vm', vm.steps m = some vm' ∧ vm'.cycle.2 = .throws
  | .ub => ∃ m vm', vm.steps m = some vm' ∧ vm'.cycle.2 = .ub
  | .timeout => ∃ vm', vm.steps n = some vm'
  | .stuck => False

end Bms.Spec
