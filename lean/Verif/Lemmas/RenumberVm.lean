import Verif.Lemmas.RenumberTyped

/-!
# Other addresses of nodes: the machine and its code

The addresses of nodes are names of variables in the machine. With other names, the machine does the same.
-/

namespace Bms

open Spec

namespace Renumber

/-- A renumbering that keeps the address that is not used for nodes. -/
structure Ren (τ : Key → Key) : Prop where
  inj : ∀ a b, τ a = τ b → a = b
  zero : τ 0 = 0

theorem Ren.sentinel {τ : Key → Key} (h : Ren τ) (k : Key) : (τ k = sentinelKey) = (k = sentinelKey) := by
  apply propext
  constructor
  · intro e
    exact h.inj _ _ (e.trans h.zero.symm)
  · intro e
    rw [e]
    exact h.zero

theorem Ren.eq {τ : Key → Key} (h : Ren τ) (a b : Key) : (τ a = τ b) = (a = b) :=
  propext ⟨h.inj a b, fun e => by rw [e]⟩

variable (τ : Key → Key)

/-- Instructions. -/
def instr : Instr → Instr
  | .load k => .load (τ k)
  | .store k => .store (τ k)
  | i => i

/-- Variables. -/
def entry (e : Entry) : Entry := ⟨τ e.key, e.value⟩

/-- Machines. -/
def vm (v : Vm) : Vm := { v with instructions := v.instructions.map (instr τ), frames := v.frames.map (entry τ) }

variable {τ}

theorem findLoop_ren (h : Ren τ) (k : Key) (data : List Entry) :
    MapStack.findLoop (τ k) (data.map (entry τ)) = MapStack.findLoop k data := by
  induction data with
  | nil => rfl
  | cons e es ih => simp only [List.map_cons, MapStack.findLoop, entry, h.sentinel, h.eq, ih]

theorem mapFind_ren {ε : Type} (h : Ren τ) (k : Key) (data : List Entry) :
    MapStack.find (ε := ε) (data.map (entry τ)) (τ k) = MapStack.find data k := by
  simp only [MapStack.find, h.sentinel, findLoop_ren h]

theorem mapLookup_ren {ε : Type} (h : Ren τ) (k : Key) (data : List Entry) :
    MapStack.lookup (ε := ε) (data.map (entry τ)) (τ k) = MapStack.lookup data k := by
  simp only [MapStack.lookup, mapFind_ren h]
  congr 1
  funext i
  cases i with
  | none => rfl
  | some i =>
    simp only [Option.bind_some, List.getElem?_map, Option.map_map]
    rfl

theorem setValue_ren (data : List Entry) (i : Nat) (v : CVal) :
    MapStack.setValue (data.map (entry τ)) i v = (MapStack.setValue data i v).map (entry τ) := by
  induction data generalizing i with
  | nil => rfl
  | cons e es ih =>
    cases i with
    | zero => rfl
    | succ i => simp only [List.map_cons, MapStack.setValue, ih]

theorem assign_ren {ε : Type} (h : Ren τ) (k : Key) (v : CVal) (data : List Entry) :
    MapStack.assign (ε := ε) (data.map (entry τ)) (τ k) v = (MapStack.assign data k v).map (List.map (entry τ)) := by
  simp only [MapStack.assign, mapFind_ren h]
  cases MapStack.find (ε := ε) data k with
  | ok o =>
    cases o with
    | none => rfl
    | some i => simp [setValue_ren]
  | err e => rfl
  | throws => rfl
  | ub => rfl

theorem popFrame_ren (h : Ren τ) (data : List Entry) :
    MapStack.popFrame (data.map (entry τ)) = (MapStack.popFrame data).map fun p => (p.1, p.2.map (entry τ)) := by
  induction data with
  | nil => rfl
  | cons e es ih =>
    simp only [List.map_cons, MapStack.popFrame]
    simp only [show (entry τ e).key = τ e.key from rfl, h.sentinel]
    by_cases he : e.key = sentinelKey
    · simp only [he, if_true]
      rfl
    · simp only [he, if_false, ih]

theorem instr_builtin (i : Instr) (f : Builtin) : (instr τ i = .builtin f) = (i = .builtin f) := by
  cases i <;> simp [instr]

theorem next_assert (is : List Instr) (i : Nat) (f : Builtin) :
    ((is.map (instr τ))[i]? = some (.builtin f)) = (is[i]? = some (.builtin f)) := by
  rw [List.getElem?_map]
  cases is[i]? with
  | none => simp
  | some x => simp [instr_builtin]

theorem exec_ren (h : Ren τ) (v : Vm) (i : Instr) :
    (vm τ v).exec (instr τ i) = (vm τ (v.exec i).1, (v.exec i).2) := by
  obtain ⟨is, fr, st, ct, cm⟩ := v
  cases i with
  | load k =>
    simp only [instr, Vm.exec, vm, mapLookup_ren h]
    cases MapStack.lookup (ε := ExecErr) fr k with
    | ok o => cases o <;> rfl
    | err e => rfl
    | throws => rfl
    | ub => rfl
  | store k =>
    simp only [instr, Vm.exec, vm]
    cases st with
    | nil => rfl
    | cons x s =>
      simp only [assign_ren h]
      cases MapStack.assign (ε := ExecErr) fr k x <;> rfl
  | push x => rfl
  | pop =>
    simp only [instr, Vm.exec, vm]
    cases st <;> rfl
  | jump o =>
    simp only [instr, Vm.exec, vm, List.length_map, Vm.target]
    split <;> rfl
  | jumpIf o b =>
    simp only [instr, Vm.exec, vm, List.length_map, Vm.target]
    cases st with
    | nil => rfl
    | cons x s =>
      simp only []
      split
      · rfl
      · split <;> rfl
  | break_ => rfl
  | continue_ => rfl
  | ret =>
    simp only [instr, Vm.exec, vm, popFrame_ren h]
    cases MapStack.popFrame fr <;> rfl
  | convert t =>
    simp only [instr, Vm.exec, vm]
    cases st with
    | nil => rfl
    | cons x s =>
      simp only []
      cases evalConversion x t <;> rfl
  | unary op =>
    simp only [instr, Vm.exec, vm]
    cases st with
    | nil => rfl
    | cons x s =>
      simp only []
      cases evalUnary op x <;> rfl
  | binary op =>
    simp only [instr, Vm.exec, vm, next_assert]
    cases st with
    | nil => rfl
    | cons x s =>
      cases s with
      | nil => rfl
      | cons y s =>
        simp only []
        cases evalBinary y op x <;> rfl
  | call a =>
    simp only [instr, Vm.exec, vm, List.length_map]
    split
    · rfl
    · simp only [MapStack.pushFrame, List.map_cons, entry, sentinelKey, h.zero]
  | builtin f =>
    simp only [instr, Vm.exec, vm]
    by_cases hl : f.paramTypes.length > st.length
    · simp only [hl, if_true]
    · simp only [hl, if_false]
      cases evalBuiltin f (st.take f.paramTypes.length).reverse <;> rfl

theorem cycle_ren (h : Ren τ) (v : Vm) : (vm τ v).cycle = (vm τ v.cycle.1, v.cycle.2) := by
  unfold Vm.cycle
  rw [show (vm τ v).instructions[(vm τ v).counter]? = (v.instructions[v.counter]?).map (instr τ) from
    List.getElem?_map ..]
  cases v.instructions[v.counter]? with
  | none => rfl
  | some i =>
    simp only [Option.map_some, exec_ren h]
    obtain ⟨v', r⟩ := v.exec i
    cases r with
    | ok u =>
      simp only [show (vm τ v').counter = v'.counter from rfl, show (vm τ v).counter = v.counter from rfl]
      split <;> rfl
    | err e => rfl
    | throws => rfl
    | ub => rfl

theorem run_ren (h : Ren τ) (n : Nat) (v : Vm) : (vm τ v).run n = (v.run n).map fun p => (vm τ p.1, p.2) := by
  induction n generalizing v with
  | zero => rfl
  | succ n ih =>
    simp only [Vm.run, cycle_ren h]
    obtain ⟨v', r⟩ := v.cycle
    cases r with
    | ok u => exact ih v'
    | err e => rfl
    | throws => rfl
    | ub => rfl

theorem push_ren (args : List CVal) (v : Vm) :
    args.foldl Vm.pushValue (vm τ v) = vm τ (args.foldl Vm.pushValue v) := by
  induction args generalizing v with
  | nil => rfl
  | cons a as ih => exact ih (v.pushValue a)

theorem constantCall_ren (h : Ren τ) (v : Vm) (a : Nat) (args : List CVal) (n : Nat) :
    constantCall (vm τ v) a args n = constantCall v a args n := by
  unfold constantCall
  have hj : (vm τ v).reset.jumpTo (ε := ExecErr) a = (v.reset.jumpTo a).map (vm τ) := by
    simp only [Vm.jumpTo, Vm.reset, vm, List.length_map]
    by_cases hl : a < v.instructions.length
    · simp only [hl, if_true]
      rfl
    · simp only [hl, if_false]
      rfl
  rw [hj]
  cases v.reset.jumpTo (ε := ExecErr) a with
  | err e => rfl
  | throws => rfl
  | ub => rfl
  | ok v' =>
    simp only [Outcome.map_ok, push_ren, run_ren h]
    cases Vm.run (args.foldl Vm.pushValue v') n with
    | none => rfl
    | some p =>
      obtain ⟨v2, r⟩ := p
      cases r with
      | ok u => rfl
      | throws => rfl
      | ub => rfl
      | err e =>
        simp only [Option.map_some, show (vm τ v2).stack = v2.stack from rfl]
        have : ((vm τ v2).popValue (ε := ExecErr)).map Prod.fst = (v2.popValue (ε := ExecErr)).map Prod.fst := by
          simp only [Vm.popValue, show (vm τ v2).stack = v2.stack from rfl]
          cases v2.stack <;> rfl
        rw [this]

end Renumber

end Bms
