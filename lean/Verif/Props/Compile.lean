import Verif.Lemmas.Run

/-!
# Properties C30 to C33: compiled programs do what their source means
-/

namespace Bms

open Spec

/-! ## Helpers -/

theorem Spec.Runs.mono {strict : Prop} {m n : Nat} {vm : Vm} {α : Type} {r : Res α}
    {K K' : α → Vm → Prop} (h : Runs strict n vm r K) (hn : m ≤ n)
    (hK : ∀ a vm', r = .ok a → vm'.instructions = vm.instructions → K a vm' → K' a vm') :
    Runs strict m vm r K' := by
  cases r with
  | ok a => obtain ⟨k, vm', h1, h2, h3⟩ := h; exact ⟨k, vm', h1, h2, hK a vm' rfl h2 h3⟩
  | timeout => obtain ⟨vm', h⟩ := h; exact steps_le h hn
  | _ => exact h

/-- The situation in which code for an expression or statement runs: a well-typed program whose
functions are in the machine, and behind them, at the counter, the code. -/
structure Running (P : Prog) (vars : Key → Option CType) (addr : Key → Option Nat) (vm : Vm)
    (code : List Instr) : Prop where
  typed : P.Typed
  homogeneous : P.Homogeneous
  returns : P.Returns
  ctx : (P.ctx vars).WF
  ok : vm.Ok
  branches : BranchesInside vm.instructions
  loaded : ∃ fns before after, Loaded P addr fns ∧ vm.instructions = fns ++ before ++ code ++ after ∧
    vm.counter = (fns ++ before).length ∧ after ≠ []
  vars : ∀ k v, vm.config.vars.top k = some v → vars k = some v.type ∧ WF v

theorem Running.setting {P : Prog} {vars : Key → Option CType} {addr : Key → Option Nat} {vm : Vm}
    {code : List Instr} (R : Running P vars addr vm code) {strict : Prop} (hF : strict → P.Fresh)
    (n : Nat) :
    Setting vm.instructions strict n (P.ctx vars) (P.meaning (P.callN n)) (P.env addr) vm.counter ∧
    CodeAt vm.instructions vm.counter code ∧ vm.counter + code.length < vm.instructions.length := by
  obtain ⟨fns, before, after, hl, hi, hc, ha⟩ := R.loaded
  obtain ⟨lay, hlay, hC⟩ := hl.compiled
  have hC' : Compiled P lay vm.instructions := by
    intro k a c hk
    obtain ⟨f, hf, lay', h1, h2, h3⟩ := hC k a c hk
    refine ⟨f, hf, lay', h1, ?_, h3⟩
    rw [hi, List.append_assoc, List.append_assoc]
    exact h2.append _
  refine ⟨⟨R.ctx, callN_agrees R.typed n vars, env_ok P addr vars, ?_⟩,
    ⟨fns ++ before, after, by rw [hi]; simp, hc.symm⟩, ?_⟩
  · intro j ts t g b hj hg hga hgb ws hws fr s p hp hcall
    simp only [Prog.ctx, Option.map_eq_some_iff] at hj
    obtain ⟨g', hg', hj⟩ := hj
    cases hj
    simp only [Prog.env, hg', Option.map_some, Option.some.injEq] at hg
    subst hg
    simp only [hlay, Option.map_eq_some_iff] at hgb
    obtain ⟨⟨b', d⟩, hl', rfl⟩ := hgb
    obtain ⟨_, _, _, _, hca, _⟩ := hC j b' d hl'
    have := hca.le
    rw [List.length_append] at hc
    exact callsOk R.typed R.homogeneous hF hC' n j b' d g' hl' hg' ws hws fr s p (by omega)
      hcall
  · rw [hi, hc]
    have := List.length_pos_iff.2 ha
    simp only [List.length_append]; omega

/-- The code that is generated for an expression. -/
def CodeOfExpr (env : FnEnv) (e : Expr) (code : List Instr) : Prop :=
  ∃ out, Gen.expr env e out = (out ++ code, .ok ())

/-- The code that is generated for a statement of a function with result type `ret`. -/
def CodeOfStmt (env : FnEnv) (ret : CType) (s : Stmt) (code : List Instr) : Prop :=
  ∃ out, Gen.stmt env (some ret) s out = (out ++ code, .ok ())

theorem codeOfExpr_iff {env : FnEnv} {e : Expr} {code : List Instr} :
    CodeOfExpr env e code ↔ Gen.exprC env e = .ok code := by
  constructor
  · rintro ⟨out, h⟩
    obtain ⟨j, hj, hjc⟩ := Gen.expr_comp env e out
    rw [hj] at h
    cases hc : Gen.exprC env e with
    | ok c =>
      have := hjc c hc
      subst this
      simp only [Prod.mk.injEq, List.append_cancel_left_eq] at h
      rw [h.1]
    | _ => rw [hc] at h; exact absurd (Prod.ext_iff.1 h).2 (by simp [Outcome.map])
  · intro h
    obtain ⟨j, hj, hjc⟩ := Gen.expr_comp env e []
    refine ⟨[], ?_⟩
    rw [hj, hjc code h, h]; rfl

theorem codeOfStmt_iff {env : FnEnv} {ret : CType} {s : Stmt} {code : List Instr} :
    CodeOfStmt env ret s code ↔ Gen.stmtC env (some ret) s = .ok code := by
  constructor
  · rintro ⟨out, h⟩
    obtain ⟨j, hj, hjc⟩ := Gen.stmt_comp env (some ret) s out
    rw [hj] at h
    cases hc : Gen.stmtC env (some ret) s with
    | ok c =>
      have := hjc c hc
      subst this
      simp only [Prod.mk.injEq, List.append_cancel_left_eq] at h
      rw [h.1]
    | _ => rw [hc] at h; exact absurd (Prod.ext_iff.1 h).2 (by simp [Outcome.map])
  · intro h
    obtain ⟨j, hj, hjc⟩ := Gen.stmt_comp env (some ret) s []
    refine ⟨[], ?_⟩
    rw [hj, hjc code h, h]; rfl

/-! ## C30 -/

/-- **C30** (partial: both branches of conditional expressions must have the type of the expression,
see `C30_conditional_violation`). Wherever it stands and whatever is on the stack, the code of a
well-typed expression pushes exactly the value that direct evaluation of the expression gives, and
leaves the rest of the stack and the variables unchanged; if direct evaluation fails, throws, or takes
long, so does the machine. (`n` bounds the depth of calls and the iterations of loops in called
functions.) -/
theorem C30_expressions_partial {P : Prog} {vars : Key → Option CType} {addr : Key → Option Nat}
    {vm : Vm} {code : List Instr} {e : Expr} (R : Running P vars addr vm code)
    (ht : Typed (P.ctx vars) e) (hh : Homogeneous e) (hc : CodeOfExpr (P.env addr) e code) (n : Nat) :
    Runs P.Fresh (n - 1) vm (evalE (P.meaning (P.callN n)) e vm.config.vars.top) fun v vm' =>
      vm'.config = ⟨vm.config.vars, v :: vm.stack, vm.counter + code.length⟩ := by
  obtain ⟨S, hat, hlt⟩ := R.setting (strict := P.Fresh) id n
  have hc := codeOfExpr_iff.1 hc
  have hs := sim_expr S (brk := 0) (cont := 0) (σ := vm.config.vars.top) R.vars
    (fr := vm.config.vars) ⟨fun _ _ h => h, fun _ => rfl⟩ e ht hh vm.stack vm.counter code hc
    (hat.located (exprC_closed _ e code hc).2 0 0) (Nat.le_refl _)
  refine (Sim.runs R.ok R.branches hs ?_ ?_).mono (Nat.le_refl _) fun a vm' _ _ h => h.2
  · exact typed_ne_stuck R.ctx (callN_agrees R.typed n vars) (callN_noStuck R.typed R.returns n vars)
      R.vars ht
  · rintro a c - rfl; exact hlt

/-! ## C31 -/

/-- Where the machine is after the code of a statement that is not part of a loop. -/
def Spec.After (vm : Vm) (code : List Instr) (strict : Prop) : Flow → Vm → Prop
  | .normal σ, vm' => ∃ top : Frame, (∀ k v, σ k = some v → top k = some v) ∧ (strict → top = σ) ∧
      vm'.config = ⟨⟨top, vm.config.vars.rest⟩, vm.stack, vm.counter + code.length⟩
  | .return_ v, vm' => vm'.instructions[vm'.counter]? = some .ret ∧ vm'.stack = v :: vm.stack ∧
      vm'.config.vars.rest = vm.config.vars.rest
  | _, _ => False

/-- **C31, statements** (partial: values that are stored must have the type of the variable already,
see `C33_violation`, and as in C30). The code of a well-typed statement changes the variables as the
structured execution of the statement does, and leaves the operand stack and the variables of callers
as they were; if the statement returns, the machine gets to a `ret` instruction, with the value on top
of the stack. Variables that have no value after the statement may have one in the machine, unless
declarations without initializer are executed once only and before assignments. -/
theorem C31_statements_partial {P : Prog} {vars : Key → Option CType} {addr : Key → Option Nat}
    {vm : Vm} {code : List Instr} {ret : CType} {st : Stmt} (R : Running P vars addr vm code)
    (hret : ret.WF) (ht : TypedS (P.ctx vars) ret false st) (hh : HomogeneousS st)
    (hc : CodeOfStmt (P.env addr) ret st code) {n fuel : Nat} (hn : n ≤ fuel) :
    let strict := P.Fresh ∧ Fresh st ∧ ∀ k ∈ uninitialized st, vm.config.vars.top k = none
    Runs strict (n - 1) vm (execS (P.meaning (P.callN n)) ret fuel st vm.config.vars.top)
      (After vm code strict) := by
  intro strict
  obtain ⟨S, hat, hlt⟩ := R.setting (strict := strict) And.left n
  have hc := codeOfStmt_iff.1 hc
  have hcl := (stmtC_closed _ _ st code hc).2 (TypedS.loopControl st ht)
  have hs := sim_stmt S hret hn (rest := vm.config.vars.rest) (s := vm.stack)
    (lim := vm.counter + code.length) st ht hh R.vars (top := vm.config.vars.top)
    ⟨fun _ _ h => h, fun _ => rfl⟩ (fun h => h.2) hc (hat.located hcl 0 0) (Nat.le_refl _)
    (Nat.le_refl _) (fun h => by cases h)
  have hok : ∀ {f}, execS (P.meaning (P.callN n)) ret fuel st vm.config.vars.top = .ok f →
      FlowOk (P.ctx vars) ret false f := fun {f} hf =>
    execS_ok R.ctx (callN_agrees R.typed n vars) hret fuel st ht R.vars hf
  refine (Sim.runs R.ok R.branches hs ?_ ?_).mono (Nat.le_refl _) fun f vm' hf _ h => ?_
  · exact execS_ne_stuck R.ctx (callN_agrees R.typed n vars)
      (callN_noStuck R.typed R.returns n vars) hret fuel st ht R.vars
  · intro f c hf h
    have := hok hf
    cases f with
    | normal σ => obtain ⟨top, -, rfl⟩ := h; exact hlt
    | return_ v => obtain ⟨top, q, rfl, -, hq⟩ := h; exact Nat.lt_trans hq hlt
    | break_ σ => cases this.1
    | continue_ σ => cases this.1
  · have := hok hf
    cases f with
    | normal σ => obtain ⟨top, hm, hc⟩ := h.2; exact ⟨top, hm.1, hm.2, hc⟩
    | return_ v =>
      obtain ⟨top, q, hc, hq, -⟩ := h.2
      simp only [Vm.config, Config.mk.injEq] at hc
      obtain ⟨h1, h2, h3⟩ := hc
      refine ⟨?_, h2, ?_⟩
      · rw [‹vm'.instructions = _›, h3]; exact hq
      · show (MapStack.frames vm'.frames).rest = _
        rw [h1]; rfl
    | break_ σ => cases this.1
    | continue_ σ => cases this.1

/-- Everything about a constant call of a compiled function. -/
theorem constant_call {P : Prog} (hP : P.Typed) (hH : P.Homogeneous) (hE : P.Ends)
    {addr : Key → Option Nat} {vm : Vm} (hL : Loaded P addr vm.instructions)
    (hlen : vm.instructions.length ≤ 2 ^ 62) {k : Key} {f : FnDef} (hf : P.fns k = some f) {a : Nat}
    (ha : addr k = some a) {vs : List CVal}
    (hvs : List.Forall₂ (fun (v : CVal) t => v.type = t ∧ WF v) vs (f.params.map Prod.snd)) (n : Nat) :
    (∀ o, (P.callN n k vs).outcome = some o → (o = .err .load_uninitialized → P.Fresh) →
      ∃ m, constantCall vm a vs m = some o) ∧
    (P.callN n k vs = .timeout → constantCall vm a vs (n - 2) = none) ∧ P.callN n k vs ≠ .stuck ∧
    a < vm.instructions.length := by
  obtain ⟨lay, hlay, hC⟩ := hL.compiled
  have hl : ∃ c, lay k = some (a, c) := by
    have := hlay k
    rw [ha] at this
    cases hk : lay k with
    | none => rw [hk] at this; cases this
    | some x => rw [hk] at this; cases this; exact ⟨_, rfl⟩
  obtain ⟨c, hk⟩ := hl
  have hns : ∀ n, P.callN n k vs ≠ .stuck := fun n h => by
    obtain ⟨vars, -⟩ := hP k f hf
    exact callN_noStuck hP hE.returns n vars k (f.params.map Prod.snd) f.ret vs
      (by simp [Prog.ctx, hf]) hvs h
  have hbody := fun n => sim_body (strict := P.Fresh) hP hH id hC (callsOk hP hH id hC n) hk hf hvs
    (rest := []) (s := [])
  have hc : 0 < c.length := by
    rw [List.length_pos_iff]
    intro h
    exact hns 1 ((hbody 0).2 h)
  have halt : a < vm.instructions.length := by
    obtain ⟨_, _, _, _, hca, _⟩ := hC k a c hk
    have := hca.le; omega
  cases n with
  | zero => exact ⟨fun o h => (by cases h), fun _ => (by rw [constantCall_eq halt]; rfl), hns 0, halt⟩
  | succ n =>
    have hwf : (startCall vm a vs).Ok := by
      refine ⟨?_, hL.instrOk hP hlen, ?_, fun _ h => by cases h⟩
      · show vm.instructions.length < 2 ^ 63; omega
      · intro v hv
        simp only [startCall, List.mem_reverse] at hv
        have : ∀ {vs : List CVal} {ts : List CType},
            List.Forall₂ (fun (v : CVal) t => v.type = t ∧ WF v) vs ts → v ∈ vs → WF v := by
          intro vs ts h
          induction h with
          | nil => intro h; cases h
          | cons h1 _ ih =>
            intro h
            cases h with
            | head => exact h1.2
            | tail _ h => exact ih h
        exact this hvs hv
    have hs := (hbody n).1
    rw [List.append_nil] at hs
    have hr := Sim.runs (vm := startCall vm a vs) hwf (hL.branches hE) hs (hns (n + 1)) (by
      rintro v c' - ⟨top, q, rfl, hq, -⟩
      exact (List.getElem?_eq_some_iff.1 hq).1)
    have := Spec.Runs.constantCall (strict := P.Fresh) halt (n := n - 1) (r := P.callN (n + 1) k vs)
      (hr.mono (Nat.le_refl _) fun v vm' _ hi h => by
        obtain ⟨top, q, hc, hq, -⟩ := h.2
        simp only [Vm.config, Config.mk.injEq] at hc
        obtain ⟨h1, h2, h3⟩ := hc
        refine ⟨h2, ?_, by rw [h1]⟩
        rw [hi, h3]; exact hq)
      (fun h => by
        rcases callN_benign P (n + 1) k vs _ h with h | ⟨x, h⟩ <;> cases h)
    exact ⟨this.1, this.2.1, this.2.2, halt⟩

/-- **C31, functions** (partial: see `C31_statements_partial`; and every function must end with a
`return` statement, see `C31_end_violation`). For every function of a well-typed program in the
machine and all arguments, the call in a constant expression has exactly the outcome that the program
says: it gives a value, reports an error or throws if and only if the call does so in the reference
semantics, and thus does not terminate if and only if the call does not. -/
theorem C31_calls_partial {P : Prog} (hP : P.Typed) (hH : P.Homogeneous) (hE : P.Ends) (hF : P.Fresh)
    {addr : Key → Option Nat} {vm : Vm} (hL : Loaded P addr vm.instructions)
    (hlen : vm.instructions.length ≤ 2 ^ 62) {k : Key} {f : FnDef} (hf : P.fns k = some f) {a : Nat}
    (ha : addr k = some a) {vs : List CVal}
    (hvs : List.Forall₂ (fun (v : CVal) t => v.type = t ∧ WF v) vs (f.params.map Prod.snd))
    (o : Outcome ExecErr CVal) :
    (∃ m, constantCall vm a vs m = some o) ↔ ∃ n, (P.callN n k vs).outcome = some o := by
  have h := constant_call hP hH hE hL hlen hf ha hvs
  constructor
  · rintro ⟨m, hm⟩
    obtain ⟨h1, h2, h3, h4⟩ := h (m + 2)
    cases ho : (P.callN (m + 2) k vs).outcome with
    | some o' =>
      obtain ⟨m', hm'⟩ := h1 o' ho fun _ => hF
      have e1 := constantCall_mono h4 hm (Nat.le_max_left m m')
      have e2 := constantCall_mono h4 hm' (Nat.le_max_right m m')
      rw [e1] at e2
      cases e2
      exact ⟨m + 2, ho⟩
    | none =>
      cases hr : P.callN (m + 2) k vs with
      | timeout => rw [show m + 2 - 2 = m by omega] at h2; rw [h2 hr] at hm; cases hm
      | stuck => exact absurd hr h3
      | _ => rw [hr] at ho; cases ho
  · rintro ⟨n, hn⟩
    exact (h n).1 o hn fun _ => hF

/-- **C31, functions**, for programs that execute declarations without initializer repeatedly: the
outcomes that the program says are reached, except that reading a variable without value may go
unnoticed. -/
theorem C31_calls_stale_partial {P : Prog} (hP : P.Typed) (hH : P.Homogeneous) (hE : P.Ends)
    {addr : Key → Option Nat} {vm : Vm} (hL : Loaded P addr vm.instructions)
    (hlen : vm.instructions.length ≤ 2 ^ 62) {k : Key} {f : FnDef} (hf : P.fns k = some f) {a : Nat}
    (ha : addr k = some a) {vs : List CVal}
    (hvs : List.Forall₂ (fun (v : CVal) t => v.type = t ∧ WF v) vs (f.params.map Prod.snd))
    {o : Outcome ExecErr CVal} (ho : o ≠ .err .load_uninitialized) {n : Nat}
    (hn : (P.callN n k vs).outcome = some o) : ∃ m, constantCall vm a vs m = some o :=
  (constant_call hP hH hE hL hlen hf ha hvs n).1 o hn fun h => absurd h ho

/-! ## C32 -/

/-- **C32.** In the code of `a || b` and `a && b`, wherever it stands: if the value of `a` decides
the result, two cycles lead from the end of the code of `a` to the end of the whole code, past the code
of `b`, with the value of `a` as the result; otherwise one cycle leads to the code of `b`, and one
cycle from the end of the code of `b` to the end of the whole code, with the value of `b` as the
result. -/
theorem C32_short_circuit {env : FnEnv} {t : CType} {op : ExprType} {l r : Expr} {code : List Instr}
    (hop : op = .logical_or ∨ op = .logical_and)
    (hc : CodeOfExpr env (.binary (some (Value.unknownOf t)) op l r) code) :
    ∃ cl cr i j, CodeOfExpr env l cl ∧ CodeOfExpr env r cr ∧ code = cl ++ i :: (cr ++ j) ∧
      ∀ (vm : Vm) (before after : List Instr) (v : CVal) (s : List CVal), vm.Ok →
        vm.instructions = before ++ code ++ after → after ≠ [] → vm.stack = v :: s →
        (vm.counter = before.length + cl.length → v = CVal.ofBool (op = .logical_or) →
          ∃ vm', vm.steps 2 = some vm' ∧ vm'.instructions = vm.instructions ∧
            vm'.config = ⟨vm.config.vars, v :: s, before.length + code.length⟩) ∧
        (vm.counter = before.length + cl.length → v = CVal.ofBool (op = .logical_and) →
          ∃ vm', vm.steps 1 = some vm' ∧ vm'.instructions = vm.instructions ∧
            vm'.config = ⟨vm.config.vars, s, before.length + cl.length + 1⟩) ∧
        (vm.counter = before.length + cl.length + 1 + cr.length →
          ∃ vm', vm.steps 1 = some vm' ∧ vm'.instructions = vm.instructions ∧
            vm'.config = ⟨vm.config.vars, v :: s, before.length + code.length⟩) := by
  have hc := codeOfExpr_iff.1 hc
  simp only [Gen.exprC, Gen.foldedC, Value.unknownOf] at hc
  obtain ⟨cl, hl, hc⟩ := Outcome.bind_eq_ok.1 hc
  obtain ⟨cr, hr, hc⟩ := Outcome.bind_eq_ok.1 hc
  rw [if_pos (by rcases hop with rfl | rfl <;> rfl)] at hc
  cases hc
  refine ⟨cl, cr, _, _, codeOfExpr_iff.2 hl, codeOfExpr_iff.2 hr, rfl, ?_⟩
  intro vm before after v s hw hi ha hs
  have hlen : (Gen.shortCode op cl cr).length = cl.length + cr.length + 3 := by
    simp [Gen.shortCode]; omega
  have hsize : before.length + (Gen.shortCode op cl cr).length < vm.instructions.length := by
    have := List.length_pos_iff.2 ha
    rw [hi]; simp only [List.length_append]; omega
  have hat : ∀ n ins, (Gen.shortCode op cl cr)[n]? = some ins →
      vm.instructions[before.length + n]? = some ins := by
    intro n ins hn
    have := (List.getElem?_eq_some_iff.1 hn).1
    rw [hi, List.append_assoc, List.getElem?_append_right (by omega), List.getElem?_append_left (by omega),
      show before.length + n - before.length = n by omega, hn]
  have h1 := hat cl.length (.jumpIf (cr.length + 1) (op = .logical_or)) (by simp [Gen.shortCode])
  have h2 := hat (cl.length + (1 + cr.length)) (.jump 1) (by
    simp only [Gen.shortCode]
    rw [List.getElem?_append_right (by omega),
      show cl.length + (1 + cr.length) - cl.length = cr.length + 1 by omega, List.getElem?_cons_succ,
      List.getElem?_append_right (Nat.le_refl _), Nat.sub_self]; rfl)
  have h3 := hat (cl.length + (2 + cr.length)) (.push (CVal.ofBool (op = .logical_or))) (by
    simp only [Gen.shortCode]
    rw [List.getElem?_append_right (by omega),
      show cl.length + (2 + cr.length) - cl.length = cr.length + 1 + 1 by omega, List.getElem?_cons_succ,
      List.getElem?_append_right (by omega), show cr.length + 1 - cr.length = 1 by omega]; rfl)
  have hcfg : vm.config = ⟨vm.config.vars, v :: s, vm.counter⟩ := by
    simp only [Vm.config, hs]
  refine ⟨fun hpc hv => ?_, fun hpc hv => ?_, fun hpc => ?_⟩
  · obtain ⟨vm1, e1, e2, e3⟩ := C26_performs (c := ⟨vm.config.vars, s, vm.counter + (cr.length + 2)⟩) hw
      (by rw [hpc]; exact h1) (by
        rw [hcfg]
        exact .taken hv (by push_cast; omega) (by omega))
    rw [if_neg (by simp only; omega)] at e3
    simp only [Vm.config, Config.mk.injEq] at e1
    obtain ⟨vm2, f1, f2, f3⟩ := C26_performs
      (c := ⟨vm.config.vars, v :: s, vm.counter + (cr.length + 2) + 1⟩) (C26_invariant hw e3)
      (i := .push (CVal.ofBool (op = .logical_or)))
      (by rw [e2, e1.2.2, hpc, ← h3]; congr 1; omega) (by
        rw [show vm1.config = ⟨vm.config.vars, s, vm.counter + (cr.length + 2)⟩ by
          simp only [Vm.config, e1.1, e1.2.1, e1.2.2], hv]
        exact .push)
    rw [if_neg (by simp only; omega)] at f3
    refine ⟨vm2, by simp only [Vm.steps, e3, f3], by rw [f2, e2], ?_⟩
    rw [f1, hpc, hlen]
    congr 1; omega
  · obtain ⟨vm1, e1, e2, e3⟩ := C26_performs (c := ⟨vm.config.vars, s, vm.counter + 1⟩) hw
      (by rw [hpc]; exact h1) (by
        rw [hcfg]
        refine .notTaken ?_ (by omega)
        rw [hv]
        rcases hop with rfl | rfl <;> rfl)
    rw [if_neg (by simp only; omega)] at e3
    exact ⟨vm1, by simp only [Vm.steps, e3], e2, by rw [e1, hpc]⟩
  · obtain ⟨vm1, e1, e2, e3⟩ := C26_performs (c := ⟨vm.config.vars, v :: s, vm.counter + 2⟩) hw
      (by rw [hpc, ← h2]; congr 1; omega) (by
        rw [hcfg]
        exact .jump (by push_cast; omega) (by omega))
    rw [if_neg (by simp only; omega)] at e3
    refine ⟨vm1, by simp only [Vm.steps, e3], e2, ?_⟩
    rw [e1, hpc, hlen]
    congr 1; omega

/-- **C32**, on the source (partial as C30). If direct evaluation of `a` decides the result, the code
of `a || b` or `a && b` yields that result, whatever `b` is and whatever its evaluation would report;
otherwise it does what direct evaluation of `b` does. -/
theorem C32_operands_partial {P : Prog} {vars : Key → Option CType} {addr : Key → Option Nat}
    {vm : Vm} {code : List Instr} {w : Value} {op : ExprType} {l r : Expr}
    (R : Running P vars addr vm code) (hop : op = .logical_or ∨ op = .logical_and)
    (ht : Typed (P.ctx vars) (.binary (some w) op l r)) (hh : Homogeneous (.binary (some w) op l r))
    (hc : CodeOfExpr (P.env addr) (.binary (some w) op l r) code) {n : Nat} {b : Bool}
    (hl : evalE (P.meaning (P.callN n)) l vm.config.vars.top = .ok (CVal.ofBool b)) :
    Runs P.Fresh (n - 1) vm
      (if b = decide (op = .logical_or) then .ok (CVal.ofBool b)
        else evalE (P.meaning (P.callN n)) r vm.config.vars.top) fun v vm' =>
      vm'.config = ⟨vm.config.vars, v :: vm.stack, vm.counter + code.length⟩ := by
  have h := C30_expressions_partial R ht hh hc n
  have hr : ∀ {v}, evalE (P.meaning (P.callN n)) r vm.config.vars.top = .ok v → ∃ b, v = CVal.ofBool b := by
    intro v hv
    cases ht with
    | binary hl hr hlv hrv hck _ =>
      obtain ⟨wr, hs⟩ := typed_sound R.ctx (callN_agrees R.typed n vars) R.vars hr
      have hwr := hs.cv.symm.trans hrv
      simp only [Option.some.injEq] at hwr
      obtain ⟨h1, h2⟩ := hs.ok v hv
      have hb : wr.type = .bool := by rw [hwr]; exact (logical_values hck hop.symm).2
      have : asBool v = .ok (decide (v.int ≠ 0)) := by rw [asBool, if_pos (h1.trans hb)]
      exact ⟨_, asBool_ok this h2⟩
  have he : evalE (P.meaning (P.callN n)) (.binary (some w) op l r) vm.config.vars.top =
      if b = decide (op = .logical_or) then .ok (CVal.ofBool b)
        else evalE (P.meaning (P.callN n)) r vm.config.vars.top := by
    have hb : (evalE (P.meaning (P.callN n)) r vm.config.vars.top >>= asBool >>= fun b =>
        Res.ok (CVal.ofBool b)) = evalE (P.meaning (P.callN n)) r vm.config.vars.top := by
      cases hv : evalE (P.meaning (P.callN n)) r vm.config.vars.top with
      | ok v =>
        obtain ⟨b, rfl⟩ := hr hv
        simp only [Res.ok_bind, asBool_ofBool]
      | _ => rfl
    rcases hop with rfl | rfl
    · rw [evalE, if_neg (by decide), if_pos rfl, hl]
      simp only [Res.ok_bind, asBool_ofBool, hb]
      cases b <;> simp [CVal.ofBool, CVal.tt]
    · rw [evalE, if_pos rfl, hl]
      simp only [Res.ok_bind, asBool_ofBool, hb]
      cases b <;> simp [CVal.ofBool, CVal.ff]
  rw [he] at h
  exact h

/-! ## C33 -/

/-- **C33** (partial: see `C33_violation`; values that are stored must have the type of the variable
already). After a well-typed statement, the variables that have a value by the meaning of the statement
have a value of their declared type in the machine; if declarations without initializer are executed
once only and before assignments, these are all variables of the function in the machine. -/
theorem C33_variables_partial {P : Prog} {vars : Key → Option CType} {addr : Key → Option Nat}
    {vm : Vm} {code : List Instr} {ret : CType} {st : Stmt} (R : Running P vars addr vm code)
    (hret : ret.WF) (ht : TypedS (P.ctx vars) ret false st) (hh : HomogeneousS st)
    (hc : CodeOfStmt (P.env addr) ret st code) {n fuel : Nat} (hn : n ≤ fuel) {σ : Frame}
    (hσ : execS (P.meaning (P.callN n)) ret fuel st vm.config.vars.top = .ok (.normal σ)) :
    ∃ m vm', vm.steps m = some vm' ∧ vm'.counter = vm.counter + code.length ∧
      (∀ k, σ k ≠ none → ∃ v, vm'.config.vars.top k = some v ∧ vars k = some v.type ∧ WF v) ∧
      ((P.Fresh ∧ Fresh st ∧ ∀ k ∈ uninitialized st, vm.config.vars.top k = none) →
        ∀ k v, vm'.config.vars.top k = some v → vars k = some v.type ∧ WF v) := by
  have h := C31_statements_partial R hret ht hh hc hn
  have hok := execS_ok R.ctx (callN_agrees R.typed n vars) hret fuel st ht R.vars hσ
  simp only [hσ] at h
  obtain ⟨m, vm', h1, -, top, h3, h4, h5⟩ := h
  have htop : vm'.config.vars.top = top := by rw [h5]
  refine ⟨m, vm', h1, congrArg Config.pc h5, fun k hk => ?_, fun hs k v hv => ?_⟩
  · cases hv : σ k with
    | none => exact absurd hv hk
    | some v => exact ⟨v, by rw [htop]; exact h3 k v hv, hok k v hv⟩
  · rw [htop, h4 hs] at hv
    exact hok k v hv

/-! ## C48 -/

/-- **C48** (partial as `C31_calls_partial`). A call of a compiled function in a constant expression
that gives a value gives a value of the result type of the function. If it reports an error, that
is an error of evaluating an operation, or the use of a variable without value: the machine never runs
out of operands, jumps out of the program, or branches on something that is not a `Bool`. -/
theorem C48_calls_partial {P : Prog} (hP : P.Typed) (hH : P.Homogeneous) (hE : P.Ends) (hF : P.Fresh)
    {addr : Key → Option Nat} {vm : Vm} (hL : Loaded P addr vm.instructions)
    (hlen : vm.instructions.length ≤ 2 ^ 62) {k : Key} {f : FnDef} (hf : P.fns k = some f) {a : Nat}
    (ha : addr k = some a) {vs : List CVal}
    (hvs : List.Forall₂ (fun (v : CVal) t => v.type = t ∧ WF v) vs (f.params.map Prod.snd)) {m : Nat} :
    (∀ v, constantCall vm a vs m = some (.ok v) → v.type = f.ret ∧ WF v) ∧
    (∀ e, constantCall vm a vs m = some (.err e) → e = .load_uninitialized ∨ ∃ x, e = .evaluation x) := by
  have key : ∀ {o}, constantCall vm a vs m = some o → ∃ n, (P.callN n k vs).outcome = some o :=
    fun h => (C31_calls_partial hP hH hE hF hL hlen hf ha hvs _).1 ⟨m, h⟩
  constructor
  · intro v hv
    obtain ⟨n, hn⟩ := key hv
    obtain ⟨vars, -⟩ := hP k f hf
    refine (callN_agrees hP n vars).call k _ _ vs v (by simp only [Prog.ctx, hf]; rfl) hvs ?_
    simp only [Prog.meaning]
    cases hr : P.callN n k vs <;> rw [hr] at hn <;> cases hn
    rfl
  · intro e he
    obtain ⟨n, hn⟩ := key he
    cases hr : P.callN n k vs with
    | fails e' =>
      rw [hr] at hn
      cases hn
      rcases callN_benign P n k vs _ hr with h | ⟨x, h⟩
      · exact .inl h
      · exact .inr ⟨x, h⟩
    | _ => rw [hr] at hn; cases hn

end Bms
