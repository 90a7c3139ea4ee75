import Verif.Lemmas.CodeOk

/-!
# From executions of configurations to cycles of the machine
-/

namespace Bms

open Spec Gen

theorem cycle_of_step {vm : Vm} (hw : vm.Ok) (hb : BranchesInside vm.instructions) {c : Config}
    (h : Step vm.instructions vm.config c) (hlt : c.pc < vm.instructions.length) :
    ∃ vm', vm.cycle = (vm', .ok ()) ∧ vm'.config = c ∧ vm'.instructions = vm.instructions ∧ vm'.Ok := by
  obtain ⟨i, hi, hd, hne⟩ := h
  have hd' : Does vm.instructions.length i vm.config c := by
    generalize hcfg : vm.config = cf at hi hd hne
    cases hd with
    | load h => exact .load h
    | store => exact .store
    | push => exact .push
    | pop => exact .pop
    | jump h h' => exact .jump h hlt
    | taken h h' h'' => exact .taken h h' hlt
    | notTaken h h' => exact .notTaken h (hb _ _ _ hi)
    | ret => exact .ret
    | convert h => exact .convert h
    | unary h => exact .unary h
    | binary h => exact .binary h
    | call h => exact .call (Nat.le_of_lt hlt)
    | assert h => exact .assert h
  obtain ⟨vm', h1, h2, h3⟩ := C26_performs hw hi hd'
  rw [if_neg (show c.pc ≠ vm.counter from hne)] at h3
  exact ⟨vm', h3, h1, h2, C26_invariant hw h3⟩

theorem Step.lt {prog : List Instr} {c c' : Config} (h : Step prog c c') : c.pc < prog.length := by
  obtain ⟨i, hi, -⟩ := h
  exact (List.getElem?_eq_some_iff.1 hi).1

theorem steps_of_stepsN {prog : List Instr} {n : Nat} {c c' : Config} (h : StepsN prog n c c') :
    ∀ {vm : Vm}, vm.Ok → vm.instructions = prog → vm.config = c → BranchesInside prog →
      c'.pc < prog.length →
      ∃ vm', vm.steps n = some vm' ∧ vm'.config = c' ∧ vm'.instructions = prog ∧ vm'.Ok := by
  induction h with
  | refl c => intro vm hw hi hc _ _; exact ⟨vm, rfl, hc, hi, hw⟩
  | step hs hn ih =>
    rename_i n c c1 c2
    intro vm hw hi hc hb hlt
    subst hi hc
    have hlt' : c1.pc < vm.instructions.length := by
      cases hn with
      | refl => exact hlt
      | step hs' _ => exact hs'.lt
    obtain ⟨vm1, h1, h2, h3, h4⟩ := cycle_of_step hw hb hs hlt'
    obtain ⟨vm2, h5, h6, h7, h8⟩ := ih h4 h3 h2 hb hlt
    exact ⟨vm2, by simp only [Vm.steps, h1]; exact h5, h6, h7, h8⟩

theorem StepsN.last {prog : List Instr} {n : Nat} {c c' : Config} (h : StepsN prog (n + 1) c c') :
    ∃ c1, StepsN prog n c c1 ∧ c1.pc < prog.length := by
  induction n generalizing c with
  | zero => cases h with | step hs _ => exact ⟨c, .refl c, hs.lt⟩
  | succ n ih =>
    cases h with
    | step hs hn =>
      obtain ⟨c1, h1, h2⟩ := ih hn
      exact ⟨c1, .step hs h1, h2⟩

theorem steps_le {vm vm' : Vm} {m n : Nat} (h : vm.steps n = some vm') (hm : m ≤ n) :
    ∃ v, vm.steps m = some v := by
  cases hs : vm.steps m with
  | some v => exact ⟨v, rfl⟩
  | none => rw [steps_none hs hm] at h; cases h

theorem evaluates_throws {vm : Vm} {i : Instr} (hi : vm.instructions[vm.counter]? = some i)
    (h : Evaluates i vm.config .throws) : vm.cycle.2 = .throws := by
  obtain ⟨is, fr, st, pc, cmp⟩ := vm
  simp only [Vm.config] at h
  generalize ho : (Outcome.throws : Outcome EvalErr CVal) = o at h
  have hi : is[pc]? = _ := hi
  cases h <;> simp only [Vm.cycle, hi, Vm.exec, ← ho]

theorem evaluates_ub {vm : Vm} {i : Instr} (hi : vm.instructions[vm.counter]? = some i)
    (h : Evaluates i vm.config .ub) : vm.cycle.2 = .ub := by
  obtain ⟨is, fr, st, pc, cmp⟩ := vm
  simp only [Vm.config] at h
  generalize ho : (Outcome.ub : Outcome EvalErr CVal) = o at h
  have hi : is[pc]? = _ := hi
  cases h <;> simp only [Vm.cycle, hi, Vm.exec, ← ho]

/-- What holds of configurations holds of the machine. -/
theorem Sim.runs {strict : Prop} {T : Nat} {α : Type} {vm : Vm} (hw : vm.Ok)
    (hb : BranchesInside vm.instructions) {r : Res α} {K : α → Config → Prop}
    (h : Sim vm.instructions strict T vm.config r K) (hr : r ≠ .stuck)
    (hK : ∀ a c, r = .ok a → K a c → c.pc < vm.instructions.length) :
    Runs strict (T - 1) vm r fun a vm' => vm'.Ok ∧ K a vm'.config := by
  cases r with
  | ok a =>
    obtain ⟨n, c', h, hk⟩ := h
    obtain ⟨vm', h1, rfl, h3, h4⟩ := steps_of_stepsN h hw rfl rfl hb (hK a c' rfl hk)
    exact ⟨n, vm', h1, h3, h4, hk⟩
  | fails e =>
    intro he
    obtain ⟨n, c', h, i, hi, hf⟩ := h he
    obtain ⟨vm', h1, rfl, h3, h4⟩ := steps_of_stepsN h hw rfl rfl hb
      (List.getElem?_eq_some_iff.1 hi).1
    rw [← h3] at hi hf
    obtain ⟨v, -, -, hc⟩ := C26_reports h4 hi hf
    exact ⟨n, vm', h1, by rw [hc]⟩
  | throws =>
    obtain ⟨n, c', h, i, hi, hf⟩ := h
    obtain ⟨vm', h1, rfl, h3, h4⟩ := steps_of_stepsN h hw rfl rfl hb
      (List.getElem?_eq_some_iff.1 hi).1
    exact ⟨n, vm', h1, evaluates_throws (by rw [h3]; exact hi) hf⟩
  | ub =>
    obtain ⟨n, c', h, i, hi, hf⟩ := h
    obtain ⟨vm', h1, rfl, h3, h4⟩ := steps_of_stepsN h hw rfl rfl hb
      (List.getElem?_eq_some_iff.1 hi).1
    exact ⟨n, vm', h1, evaluates_ub (by rw [h3]; exact hi) hf⟩
  | timeout =>
    obtain ⟨n, c', h, hn⟩ := h
    cases n with
    | zero =>
      obtain rfl : T = 0 := by omega
      exact ⟨vm, rfl⟩
    | succ n =>
      obtain ⟨c1, h1, h2⟩ := h.last
      obtain ⟨vm', h3, -⟩ := steps_of_stepsN h1 hw rfl rfl hb h2
      exact steps_le h3 (by omega)
  | stuck => exact hr rfl

/-! ## Running until an error -/

theorem run_steps {vm vm' : Vm} {n : Nat} (h : vm.steps n = some vm') {r : Vm × Outcome ExecErr Unit}
    (hr : vm'.cycle = r) (hne : r.2 ≠ .ok ()) : vm.run (n + 1) = some r := by
  induction n generalizing vm with
  | zero =>
    cases h
    obtain ⟨v, o⟩ := r
    simp only [Vm.run, hr]
    match o, hne with
    | .err e, _ => rfl
    | .throws, _ => rfl
    | .ub, _ => rfl
    | .ok (), h => exact absurd rfl h
  | succ n ih =>
    simp only [Vm.steps] at h
    split at h
    · rename_i v hc
      rw [Vm.run, hc]
      exact ih h
    · cases h

theorem run_none {vm vm' : Vm} {n : Nat} (h : vm.steps n = some vm') : vm.run n = none := by
  induction n generalizing vm with
  | zero => rfl
  | succ n ih =>
    simp only [Vm.steps] at h
    split at h
    · rename_i v hc
      rw [Vm.run, hc]
      exact ih h
    · cases h

theorem run_mono {vm : Vm} {m n : Nat} {r : Vm × Outcome ExecErr Unit} (h : vm.run m = some r)
    (hmn : m ≤ n) : vm.run n = some r := by
  induction m generalizing vm n with
  | zero => cases h
  | succ m ih =>
    cases n with
    | zero => omega
    | succ n =>
      rw [Vm.run] at h ⊢
      split at h
      · exact ih h (by omega)
      · exact h

/-! ## Errors of the reference semantics -/

/-- The only errors are errors of evaluation and reading variables without value. -/
def Benign {α : Type} (r : Res α) : Prop :=
  ∀ e, r = .fails e → e = .load_uninitialized ∨ ∃ x, e = .evaluation x

theorem Benign.ok {α : Type} (a : α) : Benign (.ok a) := fun _ h => by cases h
theorem Benign.stuck {α : Type} : Benign (.stuck : Res α) := fun _ h => by cases h

theorem Benign.bind {α β : Type} {r : Res α} {f : α → Res β} (h : Benign r) (hf : ∀ a, Benign (f a)) :
    Benign (r >>= f) := by
  cases r with
  | ok a => exact hf a
  | fails e => intro e' he; cases he; exact h e rfl
  | _ => intro e' he; cases he

theorem Benign.ofOutcome (o : Outcome EvalErr CVal) : Benign (Res.ofOutcome o) := by
  cases o with
  | err e => intro e' h; cases h; exact .inr ⟨e, rfl⟩
  | _ => intro e' h; cases h

theorem Benign.asBool (v : CVal) : Benign (asBool v) := by
  unfold Spec.asBool
  split
  · exact .ok _
  · exact .stuck

theorem Benign.readVar (σ : Frame) (k : Key) : Benign (readVar σ k) := by
  unfold Spec.readVar
  split
  · exact .ok _
  · intro e h; cases h; exact .inl rfl

theorem evalE_benign {M : Meaning} (hM : ∀ k vs, Benign (M.call k vs)) {σ : Frame} (e : Expr) :
    Benign (evalE M e σ) := by
  have hargs : ∀ {args : List Expr}, (∀ a ∈ args, Benign (evalE M a σ)) → ∀ ts,
      Benign (evalArgs M ts args σ) := by
    intro args
    induction args with
    | nil =>
      intro _ ts
      cases ts with
      | nil => exact .ok _
      | cons t ts => exact .stuck
    | cons a args iha =>
      intro ih ts
      cases ts with
      | nil => exact .stuck
      | cons t ts =>
        simp only [evalArgs]
        exact (ih a List.mem_cons_self).bind fun v => (Benign.ofOutcome _).bind fun u =>
          (iha (fun a ha => ih a (List.mem_cons_of_mem _ ha)) ts).bind fun vs => .ok _
  induction e using Expr.ind with
  | literal l cv =>
    simp only [evalE]
    split
    · exact .ok _
    · exact .stuck
  | id cv ref =>
    simp only [evalE]
    repeat' split
    all_goals first | exact .ok _ | exact .stuck | exact .readVar _ _
  | conversion cv e ct ih =>
    simp only [evalE]
    refine ih.bind fun v => ?_
    split
    · exact .ofOutcome _
    · exact .stuck
  | ite cv l c r ihl ihc ihr =>
    simp only [evalE]
    refine (ihc.bind fun v => .asBool v).bind fun b => Benign.bind ?_ fun v => ?_
    · split
      · exact ihl
      · exact ihr
    · split
      · exact .ofOutcome _
      · exact .stuck
  | binary cv op l r ihl ihr =>
    simp only [evalE]
    split
    · refine (ihl.bind fun v => .asBool v).bind fun b => ?_
      split
      · exact (ihr.bind fun v => .asBool v).bind fun b => .ok _
      · exact .ok _
    · split
      · refine (ihl.bind fun v => .asBool v).bind fun b => ?_
        split
        · exact .ok _
        · exact (ihr.bind fun v => .asBool v).bind fun b => .ok _
      · exact ihl.bind fun x => ihr.bind fun y => .ofOutcome _
  | pre cv op e ih =>
    simp only [evalE]
    exact ih.bind fun v => .ofOutcome _
  | call cv st ref args ih =>
    simp only [evalE]
    split
    · split
      · exact (hargs ih _).bind fun vs => hM _ _
      · exact .stuck
    · exact (hargs ih _).bind fun vs => .ofOutcome _
    · exact .stuck

theorem whileLoop_benign {cond : Frame → Res Bool} {body : Frame → Res Flow}
    (hc : ∀ σ, Benign (cond σ)) (hb : ∀ σ, Benign (body σ)) :
    ∀ n σ, Benign (whileLoop cond body n σ) := by
  intro n
  induction n with
  | zero => intro σ e h; cases h
  | succ n ih =>
    intro σ
    simp only [whileLoop]
    refine (hc σ).bind fun b => ?_
    split
    · refine (hb σ).bind fun f => ?_
      cases f with
      | normal σ => exact ih σ
      | continue_ σ => exact ih σ
      | break_ σ => exact .ok _
      | return_ v => exact .ok _
    · exact .ok _

theorem execS_benign {M : Meaning} (hM : ∀ k vs, Benign (M.call k vs)) {ret : CType} {fuel : Nat}
    (s : Stmt) : ∀ σ, Benign (execS M ret fuel s σ) := by
  have he := fun {σ : Frame} (e : Expr) => evalE_benign hM (σ := σ) e
  induction s using Stmt.ind with
  | const_ k d cv e => intro σ; exact .ok _
  | let_ k d cv init =>
    intro σ
    cases init with
    | none => exact .ok _
    | some e =>
      simp only [execS]
      refine (he e).bind fun v => ?_
      split
      · exact (Benign.ofOutcome _).bind fun v => .ok _
      · exact .stuck
  | staticAssert cv e => intro σ; exact .ok _
  | ifThen c t ih =>
    intro σ
    simp only [execS]
    refine ((he c).bind fun v => .asBool v).bind fun b => ?_
    split
    · exact ih σ
    · exact .ok _
  | ifElse c t e iht ihe =>
    intro σ
    simp only [execS]
    refine ((he c).bind fun v => .asBool v).bind fun b => ?_
    split
    · exact iht σ
    · exact ihe σ
  | while_ c b ih =>
    intro σ
    simp only [execS]
    exact whileLoop_benign (fun σ => (he c).bind fun v => .asBool v) ih fuel σ
  | control c cv e =>
    intro σ
    match c, e with
    | .break_, _ => exact .ok _
    | .continue_, _ => exact .ok _
    | .return_, none => exact .ok _
    | .return_, some e =>
      simp only [execS]
      exact (he e).bind fun v => (Benign.ofOutcome _).bind fun v => .ok _
  | assign cv t e =>
    intro σ
    simp only [execS]
    split
    · exact (he e).bind fun v => (Benign.ofOutcome _).bind fun v => .ok _
    · exact .stuck
  | block ss ih =>
    intro σ
    simp only [execS]
    induction ss generalizing σ with
    | nil => exact .ok _
    | cons s ss ihs =>
      simp only [execSs]
      refine (ih s List.mem_cons_self σ).bind fun f => ?_
      cases f with
      | normal σ => exact ihs (fun s hs => ih s (List.mem_cons_of_mem _ hs)) σ
      | _ => exact .ok _
  | call e =>
    intro σ
    simp only [execS]
    exact (he e).bind fun v => .ok _

theorem callN_benign (P : Prog) (n : Nat) : ∀ k vs, Benign (P.callN n k vs) := by
  induction n with
  | zero => intro k vs e h; cases h
  | succ n ih =>
    intro k vs
    simp only [Prog.callN]
    split
    · exact .stuck
    · split
      · rename_i f _ _
        have := execS_benign (M := P.meaning (P.callN n)) ih (ret := f.ret) (fuel := n + 1)
          (.block f.body) (bindParams f.params vs)
        simp only [execS] at this
        refine this.bind fun fl => ?_
        cases fl with
        | normal σ =>
          simp only [finish]
          split
          · exact .ok _
          · exact .stuck
        | return_ v => exact .ok _
        | break_ σ => exact .stuck
        | continue_ σ => exact .stuck
      · exact .stuck

/-! ## Constant calls -/

/-- The machine at the start of a constant call. -/
def startCall (vm : Vm) (a : Nat) (vs : List CVal) : Vm := ⟨vm.instructions, [], vs.reverse, a, vm.cmp⟩

theorem foldl_push (vs : List CVal) (vm : Vm) :
    vs.foldl Vm.pushValue vm = { vm with stack := vs.reverse ++ vm.stack } := by
  induction vs generalizing vm with
  | nil => rfl
  | cons v vs ih => simp [ih, Vm.pushValue]

/-- The end of a constant call. -/
def endCall (r : Vm × Outcome ExecErr Unit) : Outcome ExecErr CVal :=
  match r with
  | (vm, .err e) =>
    if e ≠ .pop_call then .err e
    else if vm.stack.length ≠ 1 then .throws
    else (vm.popValue).map Prod.fst
  | (_, .throws) => .throws
  | (_, .ub) => .ub
  | (_, .ok ()) => .throws

theorem constantCall_eq {vm : Vm} {a : Nat} (ha : a < vm.instructions.length) (vs : List CVal)
    (n : Nat) : constantCall vm a vs n = ((startCall vm a vs).run n).map endCall := by
  have h1 : (vm.reset.jumpTo a : Outcome ExecErr Vm) = .ok ⟨vm.instructions, [], [], a, vm.cmp⟩ := by
    simp [Vm.jumpTo, Vm.reset, ha]
  simp only [constantCall, h1, foldl_push, List.append_nil]
  rw [show (⟨vm.instructions, [], vs.reverse, a, vm.cmp⟩ : Vm) = startCall vm a vs from rfl]
  cases (startCall vm a vs).run n with
  | none => rfl
  | some r =>
    obtain ⟨v, o⟩ := r
    cases o with
    | ok u => cases u; rfl
    | err e => simp only [Option.map_some, endCall]; split <;> [rfl; split <;> rfl]
    | throws => rfl
    | ub => rfl

theorem constantCall_mono {vm : Vm} {a m n : Nat} {vs : List CVal} {o : Outcome ExecErr CVal}
    (ha : a < vm.instructions.length) (h : constantCall vm a vs m = some o) (hmn : m ≤ n) :
    constantCall vm a vs n = some o := by
  rw [constantCall_eq ha, Option.map_eq_some_iff] at h ⊢
  obtain ⟨r, hr, ho⟩ := h
  exact ⟨r, run_mono hr hmn, ho⟩

/-- What running a function to its end says about constant calls. -/
theorem Spec.Runs.constantCall {strict : Prop} {n : Nat} {vm : Vm} {a : Nat} {vs : List CVal}
    (ha : a < vm.instructions.length) {r : Res CVal}
    (h : Runs strict n (startCall vm a vs) r fun v vm' =>
      vm'.stack = [v] ∧ vm'.instructions[vm'.counter]? = some .ret ∧
        (MapStack.frames vm'.frames).rest = [])
    (hpc : r ≠ .fails .pop_call) :
    (∀ o, r.outcome = some o → (o = .err .load_uninitialized → strict) →
      ∃ m, constantCall vm a vs m = some o) ∧
    (r = .timeout → constantCall vm a vs n = none) ∧ r ≠ .stuck := by
  have heq := constantCall_eq (vm := vm) ha vs
  have habn : ∀ {m : Nat} {vm' : Vm} {o : Outcome ExecErr Unit}, o ≠ .ok () →
      (startCall vm a vs).steps m = some vm' → vm'.cycle.2 = o →
      ∃ v, Bms.constantCall vm a vs (m + 1) = some (endCall (v, o)) := by
    intro m vm' o ho hs hc
    refine ⟨vm'.cycle.1, ?_⟩
    rw [heq, run_steps hs (r := (vm'.cycle.1, o)) (by rw [← hc]) ho]
    rfl
  cases r with
  | ok v =>
    refine ⟨fun o ho _ => ?_, by simp, by simp⟩
    cases ho
    obtain ⟨m, vm', hs, -, hst, hret, hfr⟩ := h
    have hpop : MapStack.popFrame vm'.frames = none := by
      have := MapStack.pop_eq vm'.frames
      cases hp : MapStack.popFrame vm'.frames with
      | none => rfl
      | some x => rw [hp] at this; simp only at this; rw [hfr] at this; cases this
    have hcyc : vm'.cycle = (vm', .err .pop_call) := by
      simp only [Vm.cycle, hret, Vm.exec, hpop]
    refine ⟨m + 1, ?_⟩
    rw [heq, run_steps hs hcyc (by simp)]
    simp [endCall, hst, Vm.popValue]
  | fails e =>
    refine ⟨fun o ho hstr => ?_, by simp, by simp⟩
    cases ho
    obtain ⟨m, vm', hs, hc⟩ := h fun he => hstr (by rw [he])
    obtain ⟨v, hv⟩ := habn (by simp) hs hc
    refine ⟨m + 1, ?_⟩
    rw [hv, endCall, if_pos (fun h => hpc (by rw [h]))]
  | throws =>
    refine ⟨fun o ho _ => ?_, by simp, by simp⟩
    cases ho
    obtain ⟨m, vm', hs, hc⟩ := h
    obtain ⟨v, hv⟩ := habn (by simp) hs hc
    exact ⟨m + 1, hv⟩
  | ub =>
    refine ⟨fun o ho _ => ?_, by simp, by simp⟩
    cases ho
    obtain ⟨m, vm', hs, hc⟩ := h
    obtain ⟨v, hv⟩ := habn (by simp) hs hc
    exact ⟨m + 1, hv⟩
  | timeout =>
    refine ⟨fun o ho _ => (by cases ho), fun _ => ?_, by simp⟩
    obtain ⟨vm', hs⟩ := h
    rw [heq, run_none hs]; rfl
  | stuck => exact h.elim

end Bms
