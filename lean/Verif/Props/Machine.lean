import Verif.Props.Vm

/-!
# C88: a machine that was reset behaves as a new one

`Virtual_Machine` (src/bms/vm/vm.hpp) as its clients see it: a sequence of calls of its member functions
and what each of them answers. Analysis uses one machine for all constant expressions and calls `reset`
in front of each (src/bms/analyze.cpp:925), so what was executed before must not matter.
-/

namespace Bms

namespace Spec

/-- A call of a member function of `Virtual_Machine`. -/
inductive Use where
  | add (is : List Instr)
  | push (v : CVal)
  | pop
  | jump (address : Nat)
  | cycle
  | instructionCount
  | stackSize
  | reset
  | clear
deriving DecidableEq, Repr

/-- What a call answers. An error of execution comes with the comparison it names, if any. -/
inductive Answer where
  | nothing
  | number (n : Nat)
  | value (v : CVal)
  | error (e : ExecErr) (comparison : Option (CVal × CVal × ExprType))
  | exception
  | undefined
deriving DecidableEq, Repr

/-- The instructions that a machine has after a sequence of calls: those that were added since it was
cleared. -/
def added : List Instr → List Use → List Instr
  | is, [] => is
  | is, .add is' :: us => added (is ++ is') us
  | _, .clear :: us => added [] us
  | is, _ :: us => added is us

/-- Two answers are the same, except that the first may name a comparison where the second names none. -/
inductive SameAnswer : Answer → Answer → Prop
  | same (a : Answer) : SameAnswer a a
  | stale (e : ExecErr) (c : CVal × CVal × ExprType) :
      SameAnswer (.error e (some c)) (.error e none)

/-- Two sequences of answers are the same, except for comparisons. -/
inductive SameAnswers : List Answer → List Answer → Prop
  | nil : SameAnswers [] []
  | cons {a b : Answer} {as bs : List Answer} (h : SameAnswer a b) (t : SameAnswers as bs) :
      SameAnswers (a :: as) (b :: bs)

end Spec

open Spec

namespace Vm

/-- One call of a member function: `cycle` (src/bms/vm/vm.cpp:208-220) and the functions of
src/bms/vm/vm.hpp:51-106. `none` as the machine afterwards: behaviour is undefined. -/
def call (vm : Vm) : Use → Option Vm × Answer
  | .add is => (some (vm.addInstructions is).2, .number (vm.addInstructions is).1)
  | .push v => (some (vm.pushValue v), .nothing)
  | .pop =>
    match (vm.popValue : Outcome Unit (CVal × Vm)) with
    | .ok (v, vm') => (some vm', .value v)
    | _ => (none, .undefined)
  | .jump a =>
    match (vm.jumpTo a : Outcome Unit Vm) with
    | .ok vm' => (some vm', .nothing)
    | _ => (some vm, .exception)
  | .cycle =>
    match vm.cycle with
    | (vm', .ok ()) => (some vm', .nothing)
    | (vm', .err e) => (some vm', .error e vm.comparisonOfError)
    | (vm', .throws) => (some vm', .exception)
    | (_, .ub) => (none, .undefined)
  | .instructionCount => (some vm, .number vm.instructions.length)
  | .stackSize => (some vm, .number vm.stack.length)
  | .reset => (some vm.reset, .nothing)
  | .clear => (some vm.clear, .nothing)

/-- The machine after a sequence of calls, if their behaviour is defined. -/
def after (vm : Vm) : List Use → Option Vm
  | [] => some vm
  | u :: us =>
    match (vm.call u).1 with
    | some vm' => after vm' us
    | none => none

/-- What a sequence of calls answers; nothing more after undefined behaviour. -/
def answers (vm : Vm) : List Use → List Answer
  | [] => []
  | u :: us =>
    match (vm.call u).1 with
    | some vm' => (vm.call u).2 :: answers vm' us
    | none => [(vm.call u).2]

/-- Two machines that differ at most in the comparison, which the second one has not got then. -/
structure Forgot (vm vm' : Vm) : Prop where
  instructions : vm'.instructions = vm.instructions
  frames : vm'.frames = vm.frames
  stack : vm'.stack = vm.stack
  counter : vm'.counter = vm.counter
  cmp : vm'.cmp = vm.cmp ∨ vm'.cmp = none

theorem Forgot.eq {vm vm' : Vm} (h : Forgot vm vm') : vm' = { vm with cmp := vm'.cmp } := by
  cases vm; cases vm'
  obtain ⟨h1, h2, h3, h4, -⟩ := h
  simp only at h1 h2 h3 h4
  subst h1 h2 h3 h4
  rfl

/-- What an instruction does does not depend on the comparison. -/
theorem exec_cmp (vm : Vm) (c : Option (CVal × CVal × ExprType)) (i : Instr) :
    ({ vm with cmp := c }.exec i).2 = (vm.exec i).2 ∧
    ((({ vm with cmp := c } : Vm).exec i).1 = { (vm.exec i).1 with cmp := c } ∧
        (vm.exec i).1.cmp = vm.cmp ∨
      (({ vm with cmp := c } : Vm).exec i).1 = (vm.exec i).1) := by
  obtain ⟨is, fs, st, n, c'⟩ := vm
  cases i with
  | load s =>
    simp only [exec]
    cases MapStack.lookup (ε := ExecErr) fs s with
    | ok o => cases o <;> simp
    | _ => simp
  | store t =>
    simp only [exec]
    cases st with
    | nil => simp
    | cons v s =>
      simp only
      cases MapStack.assign (ε := ExecErr) fs t v <;> simp
  | push v => simp [exec]
  | pop => cases st <;> simp [exec]
  | jump o =>
    simp only [exec, target]
    by_cases h : (n : Int) + o + 1 ≥ is.length
    · simp [h]
    · simp [h]
  | jumpIf o b =>
    cases st with
    | nil => simp [exec]
    | cons v s =>
      simp only [exec, target]
      by_cases h1 : v.type ≠ .bool
      · simp [h1]
      · by_cases h : (n : Int) + o + 1 ≥ is.length
        · simp [h1, h]
        · simp [h1, h]
  | break_ => simp [exec]
  | continue_ => simp [exec]
  | ret =>
    simp only [exec]
    cases MapStack.popFrame fs <;> simp
  | convert t =>
    cases st with
    | nil => simp [exec]
    | cons v s =>
      simp only [exec]
      cases evalConversion v t <;> simp
  | unary op =>
    cases st with
    | nil => simp [exec]
    | cons v s =>
      simp only [exec]
      cases evalUnary op v <;> simp
  | binary op =>
    match st with
    | [] => simp [exec]
    | [_] => simp [exec]
    | r :: l :: s =>
      simp only [exec]
      cases evalBinary l op r with
      | ok u =>
        by_cases h : is[n + 1]? = some (.builtin .assert)
        · simp [h]
        · simp [h]
      | _ => simp
  | call a =>
    simp only [exec]
    by_cases h : a > is.length
    · simp [h]
    · simp [h]
  | builtin f =>
    simp only [exec]
    by_cases h : f.paramTypes.length > st.length
    · simp [h]
    · simp only [h, if_false]
      cases evalBuiltin f (st.take f.paramTypes.length).reverse <;> simp

theorem cycle_forgot {vm vm' : Vm} (h : Forgot vm vm') :
    vm'.cycle.2 = vm.cycle.2 ∧ Forgot vm.cycle.1 vm'.cycle.1 := by
  have he := h.eq
  have hc := h.cmp
  generalize vm'.cmp = c at he hc
  subst he
  simp only [cycle]
  cases hi : vm.instructions[vm.counter]? with
  | none => exact ⟨rfl, rfl, rfl, rfl, rfl, hc⟩
  | some i =>
    obtain ⟨h2, h1⟩ := exec_cmp vm c i
    simp only
    cases hx : vm.exec i with
    | mk v o =>
      cases hy : ({ vm with cmp := c } : Vm).exec i with
      | mk v' o' =>
        rw [hx, hy] at h1 h2
        simp only at h1 h2
        subst h2
        have hf : Forgot v v' := by
          rcases h1 with ⟨rfl, hv⟩ | rfl
          · exact ⟨rfl, rfl, rfl, rfl, by simpa [hv] using hc⟩
          · exact ⟨rfl, rfl, rfl, rfl, .inl rfl⟩
        cases o' with
        | ok u =>
          simp only [hf.counter]
          by_cases hn : v.counter = vm.counter
          · rw [if_pos hn, if_pos hn]; exact ⟨rfl, hf⟩
          · rw [if_neg hn, if_neg hn]; exact ⟨rfl, hf⟩
        | _ => exact ⟨rfl, hf⟩

theorem comparison_forgot {vm vm' : Vm} (h : Forgot vm vm') :
    vm'.comparisonOfError = vm.comparisonOfError ∨ vm'.comparisonOfError = none := by
  have hr := (cycle_forgot h).1
  unfold comparisonOfError
  rw [h.instructions, h.counter]
  cases hi : vm.instructions[vm.counter]? with
  | none => exact .inl rfl
  | some i =>
    cases hc : vm.cycle with
    | mk v o =>
      cases hc' : vm'.cycle with
      | mk v' o' =>
        rw [hc, hc'] at hr
        simp only at hr
        subst hr
        split
        · rename_i hb hq
          cases hq
          cases hb
          exact h.cmp
        · exact .inr rfl

theorem call_forgot {vm vm' : Vm} (h : Forgot vm vm') (u : Use) :
    SameAnswer (vm.call u).2 (vm'.call u).2 ∧
    ((vm.call u).1 = none ∧ (vm'.call u).1 = none ∨
      ∃ v v', (vm.call u).1 = some v ∧ (vm'.call u).1 = some v' ∧ Forgot v v') := by
  cases u with
  | cycle =>
    obtain ⟨h2, h1⟩ := cycle_forgot h
    have hcmp := comparison_forgot h
    simp only [call]
    cases hx : vm.cycle with
    | mk v o =>
      cases hy : vm'.cycle with
      | mk v' o' =>
        rw [hx, hy] at h1 h2
        simp only at h1 h2
        subst h2
        cases o' with
        | ok u => exact ⟨.same _, .inr ⟨v, v', rfl, rfl, h1⟩⟩
        | err e =>
          refine ⟨?_, .inr ⟨v, v', rfl, rfl, h1⟩⟩
          rcases hcmp with hq | hq
          · rw [hq]; exact .same _
          · rw [hq]
            cases vm.comparisonOfError with
            | none => exact .same _
            | some c => exact .stale e c
        | throws => exact ⟨.same _, .inr ⟨v, v', rfl, rfl, h1⟩⟩
        | ub => exact ⟨.same _, .inl ⟨rfl, rfl⟩⟩
  | _ =>
    have he := h.eq
    have hc := h.cmp
    generalize vm'.cmp = c at he hc
    subst he
    obtain ⟨is, fs, st, n, c'⟩ := vm
    first
    | exact ⟨.same _, .inr ⟨_, _, rfl, rfl, rfl, rfl, rfl, rfl, hc⟩⟩
    | (cases st with
       | nil => exact ⟨.same _, .inl ⟨rfl, rfl⟩⟩
       | cons v s => exact ⟨.same _, .inr ⟨_, _, rfl, rfl, rfl, rfl, rfl, rfl, hc⟩⟩)
    | (rename_i a
       by_cases ha : a < is.length
       · simp only [call, jumpTo, if_pos ha]
         exact ⟨.same _, .inr ⟨_, _, rfl, rfl, rfl, rfl, rfl, rfl, hc⟩⟩
       · simp only [call, jumpTo, if_neg ha]
         exact ⟨.same _, .inr ⟨_, _, rfl, rfl, rfl, rfl, rfl, rfl, hc⟩⟩)

theorem answers_forgot {vm vm' : Vm} (h : Forgot vm vm') (us : List Use) :
    SameAnswers (vm.answers us) (vm'.answers us) := by
  induction us generalizing vm vm' with
  | nil => exact .nil
  | cons u us ih =>
    obtain ⟨h1, h2⟩ := call_forgot h u
    simp only [answers]
    rcases h2 with ⟨ha, hb⟩ | ⟨v, v', ha, hb, hf⟩
    · rw [ha, hb]; exact .cons h1 .nil
    · rw [ha, hb]; exact .cons h1 (ih hf)

theorem call_added {vm vm' : Vm} {u : Use} (h : (vm.call u).1 = some vm') :
    vm'.instructions = added vm.instructions [u] := by
  cases u with
  | cycle =>
    have hp := C26_program_unchanged vm
    simp only [call] at h
    cases hx : vm.cycle with
    | mk v o =>
      rw [hx] at h hp
      cases o <;> simp only [Option.some.injEq, reduceCtorEq] at h
      all_goals subst h; exact hp
  | pop =>
    cases hs : vm.stack with
    | nil => simp [call, popValue, hs] at h
    | cons v s => simp only [call, popValue, hs, Option.some.injEq] at h; subst h; rfl
  | jump a =>
    by_cases ha : a < vm.instructions.length
    · simp only [call, jumpTo, if_pos ha, Option.some.injEq] at h; subst h; rfl
    · simp only [call, jumpTo, if_neg ha, Option.some.injEq] at h; subst h; rfl
  | _ => cases h; rfl

theorem added_cons (is : List Instr) (u : Use) (us : List Use) :
    added is (u :: us) = added (added is [u]) us := by
  cases u <;> rfl

theorem after_added {vm vm' : Vm} {us : List Use} (h : vm.after us = some vm') :
    vm'.instructions = added vm.instructions us := by
  induction us generalizing vm with
  | nil => cases h; rfl
  | cons u us ih =>
    simp only [after] at h
    cases hc : (vm.call u).1 with
    | none => rw [hc] at h; cases h
    | some v =>
      rw [hc] at h
      rw [ih h, added_cons, call_added hc]

theorem no_comparison {vm : Vm} {us : List Use} (hv : .builtin .assert ∉ vm.instructions)
    (hu : ∀ is, .add is ∈ us → .builtin .assert ∉ is) {e : ExecErr} {c : CVal × CVal × ExprType}
    (h : .error e (some c) ∈ vm.answers us) : False := by
  induction us generalizing vm with
  | nil => cases h
  | cons u us ih =>
    have hfirst : Answer.error e (some c) ≠ (vm.call u).2 := by
      intro hq
      cases u with
      | cycle =>
        simp only [call] at hq
        cases hx : vm.cycle with
        | mk v o =>
          rw [hx] at hq
          cases o with
          | err e' =>
            simp only [Answer.error.injEq] at hq
            unfold comparisonOfError at hq
            split at hq
            · rename_i hi _
              exact hv (List.mem_of_getElem? hi)
            · cases hq.2
          | _ => cases hq
      | pop =>
        cases hs : vm.stack with
        | nil => simp [call, popValue, hs] at hq
        | cons v s => simp [call, popValue, hs] at hq
      | jump a =>
        by_cases ha : a < vm.instructions.length
        · simp [call, jumpTo, if_pos ha] at hq
        · simp [call, jumpTo, if_neg ha] at hq
      | _ => cases hq
    simp only [answers] at h
    cases hc : (vm.call u).1 with
    | none =>
      rw [hc] at h
      simp only [List.mem_singleton] at h
      exact hfirst h
    | some v =>
      rw [hc] at h
      simp only [List.mem_cons] at h
      rcases h with h | h
      · exact hfirst h
      · refine ih ?_ (fun is hm => hu is (List.mem_cons_of_mem _ hm)) h
        rw [call_added hc]
        cases u with
        | add is =>
          intro hm
          rcases List.mem_append.1 hm with hm | hm
          · exact hv hm
          · exact hu is (by simp) hm
        | clear => exact fun hm => by cases hm
        | _ => exact hv

end Vm

theorem Spec.SameAnswers.equal {as bs : List Answer} (h : SameAnswers as bs)
    (hn : ∀ e c, .error e (some c) ∉ as) : as = bs := by
  induction h with
  | nil => rfl
  | cons h _ ih =>
    rw [ih (fun e c hm => hn e c (List.mem_cons_of_mem _ hm))]
    cases h with
    | same => rfl
    | stale e c => exact (hn e c (by simp)).elim

/-- **C88.** Whatever was done with a machine: after `reset`, every sequence of calls has the answers
that a new machine with the same instructions gives, except that a failed assertion may name a
comparison where the new machine names none (`C88_violation`). -/
theorem C88_reset_partial {past : List Use} {vm : Vm} (h : Vm.initial.after past = some vm)
    (future : List Use) :
    SameAnswers (vm.answers (.reset :: future))
      (.nothing :: ((Vm.initial.addInstructions (added [] past)).2.answers future)) := by
  refine .cons (.same _) (Vm.answers_forgot (vm := vm.reset) ?_ future)
  have := Vm.after_added h
  exact ⟨by simpa [Vm.addInstructions, Vm.initial, Vm.reset] using this.symm, rfl, rfl, rfl, .inr rfl⟩

/-- **C88.** After `clear`, a machine in whatever state answers as a new one without instructions, with
the same exception. -/
theorem C88_clear_partial (vm : Vm) (future : List Use) :
    SameAnswers (vm.answers (.clear :: future)) (.nothing :: Vm.initial.answers future) :=
  .cons (.same _) (Vm.answers_forgot (vm := vm.clear) (vm' := Vm.initial)
    ⟨rfl, rfl, rfl, rfl, .inr rfl⟩ future)

/-- **C88.** Without assertions in the program there is no exception: the answers after `reset` are
those of a new machine. -/
theorem C88_reset_same {past future : List Use} {vm : Vm} (h : Vm.initial.after past = some vm)
    (hp : .builtin .assert ∉ added [] past)
    (hf : ∀ is, .add is ∈ future → .builtin .assert ∉ is) :
    vm.answers (.reset :: future) =
      .nothing :: ((Vm.initial.addInstructions (added [] past)).2.answers future) := by
  refine (C88_reset_partial h future).equal ?_
  intro e c hm
  simp only [Vm.answers, Vm.call, List.mem_cons, reduceCtorEq, false_or] at hm
  refine Vm.no_comparison ?_ hf hm
  have hi := Vm.after_added h
  rw [show Vm.initial.instructions = [] from rfl] at hi
  rw [← hi] at hp
  exact hp

/-- **C88, violated.** After the calls of the past, in which `assert(1 == 1)` succeeds, `reset` and the
execution of `assert(false)`, the comparison `1 == 1` is named as the one that failed. A new machine
names none. -/
theorem C88_violation :
    let program : List Instr := [.push (CVal.ofInt 1), .push (CVal.ofInt 1), .binary .equals,
      .builtin .assert, .push CVal.ff, .builtin .assert]
    let past : List Use := [.add program, .cycle, .cycle, .cycle, .cycle]
    let future : List Use := [.jump 4, .cycle, .cycle]
    (∃ vm, Vm.initial.after past = some vm ∧ vm.answers (.reset :: future) =
      [.nothing, .nothing, .nothing, .error (.evaluation .assertion_fail)
        (some (CVal.ofInt 1, CVal.ofInt 1, .equals))]) ∧
    (Vm.initial.addInstructions program).2.answers future =
      [.nothing, .nothing, .error (.evaluation .assertion_fail) none] :=
  ⟨⟨_, rfl, by decide⟩, by decide⟩

/-- A case for `C88_reset_same`: a machine that has stopped with an error inside of a call, with values
on its stack, computes `1 + 2` after `reset`. -/
theorem C88_sample :
    let program : List Instr := [.push (CVal.ofInt 1), .call 2, .load 7, .push (CVal.ofInt 2),
      .binary .binary_plus]
    let past : List Use := [.add program, .cycle, .cycle, .cycle]
    let future : List Use := [.cycle, .jump 3, .cycle, .cycle, .pop, .stackSize]
    (∃ vm, Vm.initial.after past = some vm ∧ vm.frames ≠ [] ∧ vm.stack ≠ [] ∧ vm.counter ≠ 0 ∧
      vm.answers (.reset :: future) = [.nothing, .nothing, .nothing, .nothing, .nothing,
        .value (CVal.ofInt 3), .number 0]) ∧
    .builtin .assert ∉ added [] past ∧ added [] past = program :=
  ⟨⟨_, rfl, by decide, by decide, by decide, by decide⟩, by decide, by decide⟩

end Bms
