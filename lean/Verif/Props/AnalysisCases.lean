import Verif.Props.AnalysisValues

/-!
# Programs that analysis accepts, rejects, or does not get along with
-/

namespace Bms

open Spec

namespace Programs

def int (k : Key) : AType := .base k none .int
def bool (k : Key) : AType := .base k none .bool
def uint (k : Key) (w : AExpr) : AType := .uint k none none w
def lit (k : Key) (t : String) : AExpr := .literal k none (some (.integer t.toList))
def true_ (k : Key) : AExpr := .literal k none (some .true_)
def name (k : Key) (t : String) : AExpr := .id k none t.toList none false
def call (k : Key) (t : String) (args : List AExpr) : AExpr := .call k none false t.toList none args
def binary (k : Key) (op : ExprType) (l r : AExpr) : AExpr := .binary k none op l r
def param (k : Key) (t : String) (ty : AType) : AParam := ⟨k, t.toList, ty⟩
def let_ (k : Key) (t : String) (ty : Option AType) (e : AExpr) : AStmt := .let_ k none t.toList ty (some e)
def return_ (k : Key) (e : AExpr) : AStmt := .control k none .return_ (some e)
def fn (k : Key) (t : String) (ps : List AParam) (ret : AType) (bk : Key) (b : List AStmt) : AFn where
  k := k
  cv := none
  name := t.toList
  params := ps
  ret := ret
  requires_ := none
  bodyKey := bk
  body := b
  instances := []
  generic := false
  address := none
  level := .unanalyzed
def const_ (k : Key) (t : String) (ty : Option AType) (e : AExpr) : ADecl := .const_ k none t.toList ty e

/-- What remains of the result of an analysis without the final state. -/
inductive Verdict where
  | accepted
  | rejected (c : ACode) (k : Key)
  | throws
  | ub
  | timeout
deriving DecidableEq, Repr

def verdict : ARes Unit → Verdict
  | .ok _ _ => .accepted
  | .err e => .rejected e.code e.fail
  | .throws => .throws
  | .ub => .ub
  | .timeout => .timeout

/-- The value of a declaration after the analysis. -/
def valueOf (k : Key) : ARes Unit → Option Decl
  | .ok _ s => s.decl k
  | _ => none

/-- `const c = f(3);`
`function f(x: Int) -> Int { let y = x; while y < 10 { y = y * 2; } return y; }`
`function h(x: Uint(8)) -> Uint(8) { return g(x) + c; }`
`function g(x: Uint(N)) -> Uint(N) { return x; }` -/
def sample : List ADecl :=
  [const_ 1 "c" none (call 2 "f" [lit 3 "3"]),
    .function (fn 4 "f" [param 5 "x" (int 6)] (int 7) 8
      [let_ 9 "y" none (name 10 "x"),
        .while_ 11 none (binary 12 .less_than (name 13 "y") (lit 14 "10")) (.block 15 none
          [.assign 16 none ['y'] none (binary 17 .multiplication (name 18 "y") (lit 19 "2"))]),
        return_ 20 (name 21 "y")]),
    .function (fn 22 "h" [param 23 "x" (uint 24 (lit 25 "8"))] (uint 26 (lit 27 "8")) 28
      [return_ 29 (binary 30 .binary_plus (call 31 "g" [name 32 "x"]) (name 33 "c"))]),
    .function (fn 34 "g" [param 35 "x" (uint 36 (name 37 "N"))] (uint 38 (name 39 "N")) 40
      [return_ 41 (name 42 "x")])]

/-- `function f(x: Int) -> Int { return f(x); }` -/
def recursion : List ADecl :=
  [.function (fn 1 "f" [param 2 "x" (int 3)] (int 4) 5 [return_ 6 (call 7 "f" [name 8 "x"])])]

/-- `function f(x: Int) -> Int requires true { let b: Bool = f(x); return x; }` -/
def boolRecursion : List ADecl :=
  [.function { fn 1 "f" [param 2 "x" (int 3)] (int 4) 5
    [let_ 6 "b" (some (bool 7)) (call 8 "f" [name 9 "x"]), return_ 10 (name 11 "x")] with
    requires_ := some (true_ 12) }]

/-- `function f(x: Int) -> Int requires true { return f(x); }` -/
def intRecursion : List ADecl :=
  [.function { fn 1 "f" [param 2 "x" (int 3)] (int 4) 5 [return_ 6 (call 7 "f" [name 8 "x"])] with
    requires_ := some (true_ 9) }]

/-- `function g(x: Uint(N)) -> Uint(N) { return true; }` -/
def wrong : ADecl :=
  .function (fn 1 "g" [param 2 "x" (uint 3 (name 4 "N"))] (uint 5 (name 6 "N")) 7 [return_ 8 (true_ 9)])

/-- `function h(x: Uint(8)) -> Uint(8) { return g(x); }` -/
def user : ADecl :=
  .function (fn 10 "h" [param 11 "x" (uint 12 (lit 13 "8"))] (uint 14 (lit 15 "8")) 16
      [return_ 17 (call 18 "g" [name 19 "x"])])

/-- `function f(x: Uint(f(1))) -> Int { return 0; }` -/
def endless : List ADecl :=
  [.function (fn 1 "f" [param 2 "x" (uint 3 (call 4 "f" [lit 5 "1"]))] (int 6) 7 [return_ 8 (lit 9 "0")])]

/-- `const c = f(); function f() -> Int { while true { } return 0; }` -/
def looping : List ADecl :=
  [const_ 1 "c" none (call 2 "f" []), .function (fn 3 "f" [] (int 4) 5
    [.while_ 6 none (true_ 7) (.block 8 none []), return_ 9 (lit 10 "0")])]

/-- `function f(x: Int) -> Int { return x(1); }` -/
def callParameter : List ADecl :=
  [.function (fn 1 "f" [param 2 "x" (int 3)] (int 4) 5 [return_ 6 (call 7 "x" [lit 8 "1"])])]

/-- `const c = -1 as Uint(8);` -/
def negative : List ADecl :=
  [const_ 1 "c" none (.conversion 2 none (.prefix 3 none .unary_minus (lit 4 "1")) (uint 5 (lit 6 "8")))]

/-- `const c: Uint(8) = -1 as Uint(8);` -/
def negativeTyped : List ADecl :=
  [const_ 1 "c" (some (uint 7 (lit 8 "8")))
    (.conversion 2 none (.prefix 3 none .unary_minus (lit 4 "1")) (uint 5 (lit 6 "8")))]

/-- `const c = true || 0 / 0 == 0;` -/
def shortCircuit : List ADecl :=
  [const_ 1 "c" none (binary 2 .logical_or (true_ 3) (binary 4 .equals
    (binary 5 .division (lit 6 "0") (lit 7 "0")) (lit 8 "0")))]

/-- `function f() -> Int { if false { assert(false); } return 0; }` -/
def unreached : List ADecl :=
  [.function (fn 1 "f" [] (int 2) 3 [.ifThen 4 none (.literal 5 none (some .false_)) (.block 6 none
    [.call (.call 7 none true "assert".toList none [.literal 8 none (some .false_)])]), return_ 9 (lit 10 "0")])]

/-- `function f(x: Uint(w)) -> Int { return 0; }` -/
def width (w : String) : List ADecl :=
  [.function (fn 1 "f" [param 2 "x" (uint 3 (lit 4 w))] (int 5) 6 [return_ 7 (lit 8 "0")])]

/-- `function f() -> Int { let x = assert; return 0; }` -/
def nameOfBuiltin : List ADecl :=
  [.function (fn 1 "f" [] (int 2) 3 [let_ 4 "x" none (name 5 "assert"), return_ 6 (lit 7 "0")])]

/-- `function g(x: Uint(N), y: Int) -> Uint(N) { return x; }`
`function h(x: Uint(8)) -> Uint(8) { return g(x, 1); }` -/
def mixed : List ADecl :=
  [.function (fn 1 "g" [param 2 "x" (uint 3 (name 4 "N")), param 20 "y" (int 21)] (uint 5 (name 6 "N"))
    7 [return_ 8 (name 9 "x")]),
  .function (fn 10 "h" [param 11 "x" (uint 12 (lit 13 "8"))] (uint 14 (lit 15 "8")) 16
      [return_ 17 (call 18 "g" [name 19 "x", lit 23 "1"])])]

end Programs

open Programs

/-! ## C54: hypotheses that are met, and programs that are accepted although they are wrong -/

theorem sample_raw : RawProgram sample 50 := by
  refine ⟨?_, by decide, by decide⟩
  simp only [sample, List.forall_mem_cons, List.not_mem_nil, false_imp_iff, implies_true, and_true, RawD]
  refine ⟨by simp [const_, call, RawE, RawEs, lit], ?_, ?_, ?_⟩ <;>
    constructor <;>
    simp [fn, param, int, uint, lit, name, call, let_, return_, binary, RawT, RawE, RawEs, RawS, RawSs, CallFree, CallFreeT]

theorem sample_noSelf : NoSelfReference sample := by
  have h : (match Names.program sample with
    | .ok ds' => ds'.all fun d => match d with
      | .function f => f.requires_.isNone
      | _ => true
    | _ => false) = true := by decide +kernel
  intro ds' hn f hf hr
  rw [hn] at h
  simp only [List.all_eq_true] at h
  have := h _ hf
  simp only [Option.isNone_iff_eq_none] at this
  exact absurd this hr

/-- The hypotheses of C54, C55 and C56 are met by a program with a constant that calls a function with a
loop, and a function that calls a generic one. -/
theorem C54_sample : RawProgram sample 50 ∧ NoSelfReference sample ∧
    verdict (Ana.program 100 sample 50) = .accepted ∧
    valueOf 1 (Ana.program 100 sample 50) = some ⟨.const_, some (Value.known (CVal.ofInt 12))⟩ :=
  ⟨sample_raw, sample_noSelf, by decide +kernel, by decide +kernel⟩

/-- **C54** is violated by functions with a requires-clause that call themselves: the call counts as a
`Bool`, whatever the result type of the function is. A function with result type `Int` that uses its own
result as `Bool` is accepted, one that uses it as `Int` is rejected. -/
theorem C54_recursion_violation :
    verdict (Ana.program 100 boolRecursion 50) = .accepted ∧
    verdict (Ana.program 100 intRecursion 50) = .rejected (.check .incompatible_types) 6 := by
  decide +kernel

/-- **C54** is violated by generic functions that are declared before they are used: the body of their
instances is never analyzed. The same two functions are accepted or rejected depending on their order. -/
theorem C54_instance_violation :
    verdict (Ana.program 100 [wrong, user] 50) = .accepted ∧
    verdict (Ana.program 100 [user, wrong] 50) = .rejected (.check .incompatible_types) 58 := by
  decide +kernel

/-! ## C58: analysis that does not end -/

def endlessFn : AFn := fn 1 "f" [param 2 "x" (uint 3 (.call 4 none false ['f'] (some (.node 1)) [lit 5 "1"]))] (int 6) 7
  [return_ 8 (lit 9 "0")]

theorem endless_lookup : Names.program endless = .ok [.function endlessFn] := by rfl

/-- One after the other. -/
theorem AM.bind_apply {α β : Type} (x : AM α) (f : α → AM β) (s : ASt) : (x >>= f) s =
    match x s with
    | .ok a s' => f a s'
    | .err e => .err e
    | .throws => .throws
    | .ub => .ub
    | .timeout => .timeout := rfl

theorem AM.pure_apply {α : Type} (a : α) (s : ASt) : (pure a : AM α) s = .ok a s := rfl

theorem AM.read_apply (s : ASt) : AM.read s = .ok s s := rfl

theorem AM.value_apply {α : Type} (a : α) (s : ASt) : AM.value (some a) s = .ok a s := rfl

theorem AM.assert_apply (s : ASt) : AM.assert true s = .ok () s := rfl

theorem AM.deref_apply {α : Type} (a : α) (s : ASt) : AM.deref (some a) s = .ok a s := rfl

theorem endless_expr (n : Nat) (af : Key → Level → AM Unit) (s : ASt) (hs : s.fns 1 = some endlessFn)
    (hst : s.stack = []) (haf : af 1 .forConst s = .timeout) :
    Ana.expr n af (.call 4 none false ['f'] (some (.node 1)) [lit 5 "1"]) .forConst .constant s = .timeout := by
  have hl : Ana.exprs n af [lit 5 "1"] .forConst .constant s =
      .ok [.literal 5 (some (Value.known (CVal.ofInt 1))) (some (.integer ['1']))] s := by rfl
  have hg : endlessFn.generic = false := rfl
  have hp : endlessFn.params.length = 1 := rfl
  have hk : endlessFn.k = 1 := rfl
  simp [-bind_pure_comp, hp, hk, Ana.expr, AM.bind_apply, hl, Ana.callFunction, AM.read_apply, hs, Ana.callee, AM.value_apply,
    hg, AM.assert_apply, hst, haf]

theorem endless_function (s : ASt) (hs : s.fns 1 = some endlessFn) (hst : s.stack = []) :
    ∀ (n : Nat) (l : Level), l ≠ .unanalyzed → Ana.function n 1 l s = .timeout := by
  intro n
  induction n with
  | zero => intro l _; rfl
  | succ n ih =>
    intro l hl
    have := endless_expr n (Ana.function n) s hs hst (ih .forConst (by decide))
    have hr : ¬ l.rank ≤ 0 := by cases l <;> simp [Level.rank] at hl ⊢
    have hu : ¬ l.rank ≤ endlessFn.level.rank := hr
    have hp : endlessFn.params =
      [param 2 "x" (uint 3 (.call 4 none false ['f'] (some (.node 1)) [lit 5 "1"]))] := rfl
    have hg : endlessFn.generic = false := rfl
    have hi : endlessFn.instances = [] := rfl
    simp [-bind_pure_comp, Ana.function, AM.bind_apply, AM.assert_apply, AM.read_apply, AM.value_apply, hs, hl, hu, hp,
      Ana.params, param, uint, Ana.type, this, hg, hi]

/-- **C58** is violated by functions with a call of themselves in the type of a parameter: analysis does
not end. -/
theorem C58_signature_violation (n : Nat) : Ana.program n endless 50 = .timeout := by
  simp only [Ana.program, endless_lookup, Ana.decls, Ana.decl, AM.bind_apply]
  have := endless_function (Ana.initial [.function endlessFn] 50) rfl rfl n .full (by decide)
  rw [show endlessFn.k = 1 from rfl, this]

/-- The declarations of `looping` after name lookup. -/
def loopingFn : AFn := fn 3 "f" [] (int 4) 5 [.while_ 6 none (true_ 7) (.block 8 none []), return_ 9 (lit 10 "0")]

def loopingDecls : List ADecl :=
  [const_ 1 "c" none (.call 2 none false ['f'] (some (.node 3)) []), .function loopingFn]

theorem looping_lookup : Names.program looping = .ok loopingDecls := by rfl

/-- The state after analysis of the function. -/
def loopingState : ASt :=
  match Ana.function 1 3 .forConst (Ana.initial loopingDecls 50) with
  | .ok _ s => s
  | _ => Ana.initial [] 50

theorem looping_function (n : Nat) :
    Ana.function (n + 1) 3 .forConst (Ana.initial loopingDecls 50) = .ok () loopingState := by rfl

/-- The machine at the start of the function. -/
def loopStart : Vm :=
  match ({ Vm.initial with instructions := loopingState.code } : Vm).reset.jumpTo (ε := ExecErr) 0 with
  | .ok vm => vm
  | _ => Vm.initial

/-- At the start, and after one and two instructions. -/
def loopMachine : Fin 3 → Vm
  | 0 => loopStart
  | 1 => loopStart.cycle.1
  | 2 => loopStart.cycle.1.cycle.1

theorem looping_cycle : ∀ i : Fin 3, (loopMachine i).cycle = (loopMachine (i + 1), .ok ()) := by
  decide +kernel

theorem looping_run (n : Nat) : ∀ i, (loopMachine i).run n = none := by
  induction n with
  | zero => intro i; rfl
  | succ n ih => intro i; simp only [Vm.run, looping_cycle, ih]

theorem looping_call (n : Nat) :
    constantCall { Vm.initial with instructions := loopingState.code } 0 [] n = none := by
  have : ({ Vm.initial with instructions := loopingState.code } : Vm).reset.jumpTo (ε := ExecErr) 0 =
    .ok (loopMachine 0) := by rfl
  simp only [constantCall, this, List.foldl_nil, looping_run]

/-- The function after its analysis. -/
def loopingDone : AFn := (loopingState.fns 3).getD loopingFn

/-- **C58** is violated by constants whose value is computed by a loop without end. -/
theorem C58_constant_violation (n : Nat) : Ana.program n looping 50 = .timeout := by
  cases n with
  | zero => rfl
  | succ n =>
    have hf := looping_function n
    have h0 : (Ana.initial loopingDecls 50).fns 3 = some loopingFn := rfl
    have h1 : loopingState.fns 3 = some loopingDone := rfl
    have hp : loopingFn.params = [] := rfl
    have hg : loopingFn.generic = false := rfl
    have hk : loopingFn.k = 3 := rfl
    have hs : (Ana.initial loopingDecls 50).stack = [] := rfl
    have hl : loopingDone.level = .forConst := rfl
    have hc : loopingDone.cv = some (Value.unknownOf .int) := rfl
    have ha : loopingDone.address = some 0 := rfl
    have hz : 0 < loopingState.code.length := by decide +kernel
    have hcall := looping_call (n + 1)
    simp only at hcall
    have hcl : Ana.callFunction (n + 1) (Ana.function (n + 1)) 2 3 [] .forConst .constant (Ana.initial loopingDecls 50)
        = .timeout := by
      simp [-bind_pure_comp, Ana.callFunction, AM.bind_apply, AM.read_apply, h0, hp, Ana.callee, hg, AM.value_apply, hk,
        AM.assert_apply, hs, hf, h1, hl, hc, ha, hz, Ana.passArgs, AM.deref_apply, AM.pure_apply, hcall, AM.timeout]
    have he : Ana.exprs (n + 1) (Ana.function (n + 1)) [] .forConst .constant (Ana.initial loopingDecls 50) =
        .ok [] (Ana.initial loopingDecls 50) := rfl
    generalize hS : Ana.initial loopingDecls 50 = S at *
    simp [-bind_pure_comp, Ana.program, looping_lookup, hS]
    simp [-bind_pure_comp, loopingDecls, const_, Ana.decls, Ana.decl, AM.bind_apply, Ana.const_, Ana.expr, he, hcl]
/-! ## C59: analysis that throws or has undefined behavior -/

/-- **C59** is violated: a function that calls itself outside of constant expressions reads the value of
a function that has none, and so does a call of a parameter. -/
theorem C59_ub_violation :
    verdict (Ana.program 100 recursion 50) = .ub ∧ verdict (Ana.program 100 callParameter 50) = .ub := by
  decide +kernel

/-- **C59** is violated: analysis throws for a constant whose initializer cannot be computed (the
conversion of a negative number, and a division by zero that is not reached), for `Uint(1)` and
`Uint(128)`, for the name of a built-in function that is not called, and for a call of a generic
function with a parameter that is not of type `Uint`. -/
theorem C59_throws_violation :
    verdict (Ana.program 100 negative 50) = .throws ∧ verdict (Ana.program 100 shortCircuit 50) = .throws ∧
    verdict (Ana.program 100 (width "1") 50) = .throws ∧ verdict (Ana.program 100 (width "128") 50) = .throws ∧
    verdict (Ana.program 100 nameOfBuiltin 50) = .throws ∧ verdict (Ana.program 100 mixed 50) = .throws := by
  decide +kernel

/-- Widths that are not valid are reported, and others are not. -/
theorem C59_widths : verdict (Ana.program 100 (width "0") 50) = .rejected .width_invalid 4 ∧
    verdict (Ana.program 100 (width "8") 50) = .accepted := by
  decide +kernel

/-! ## C57: values of constants -/

/-- **C57** is violated: a typed constant whose initializer cannot be computed is accepted and has no
value. -/
theorem C57_unknown_violation :
    verdict (Ana.program 100 negativeTyped 50) = .accepted ∧
    valueOf 1 (Ana.program 100 negativeTyped 50) = some ⟨.const_, some (Value.unknownOf (.uint 8))⟩ := by
  decide +kernel

/-- A constant that is computed by a call. -/
theorem C57_sample_value : valueOf 1 (Ana.program 100 sample 50) =
    some ⟨.const_, some (Value.known (CVal.ofInt 12))⟩ := by
  decide +kernel

/-! ## C55, C56: hypotheses that are met -/

/-- The state after analysis of `sample`. -/
def sampleState : ASt :=
  match Ana.program 100 sample 50 with
  | .ok _ s => s
  | _ => Ana.initial [] 50

theorem sample_accepted : Ana.program 100 sample 50 = .ok () sampleState := by
  have h : (match Ana.program 100 sample 50 with
    | .ok _ _ => true
    | _ => false) = true := by decide +kernel
  revert h
  unfold sampleState
  cases Ana.program 100 sample 50 <;> simp

/-- The body of the function that is compiled. -/
def sampleBody : List Stmt :=
  [.let_ 9 none (some (Value.unknownOf .int)) (some (.id (some (Value.unknownOf .int)) (some (.param 5)))),
    .while_ (.binary (some (Value.unknownOf .bool)) .less_than
        (.id (some (Value.unknownOf .int)) (some (.node 9)))
        (.literal (.integer ['1', '0']) (some (Value.known (CVal.ofInt 10)))))
      (.block [.assign (some (Value.unknownOf .int)) (some (.node 9)) (.binary (some (Value.unknownOf .int))
        .multiplication (.id (some (Value.unknownOf .int)) (some (.node 9)))
        (.literal (.integer ['2']) (some (Value.known (CVal.ofInt 2)))))]),
    .control .return_ (some (Value.unknownOf .int)) (some (.id (some (Value.unknownOf .int)) (some (.node 9))))]

/-- Computed by the kernel; `rfl` would have the elaborator compute the same with more memory. -/
theorem sample_body : ((progOf sampleState).fns 4).map FnDef.body = some sampleBody := by
  run_tac do
    let g ← Lean.Elab.Tactic.getMainGoal
    let some (_, l, _) := (← g.getType).eq? | throwError "not an equation"
    g.assign (← Lean.Meta.mkEqRefl l)

theorem sample_inv : ∃ N, Inv N sampleState := by
  obtain ⟨ds', hn, hd⟩ := program_split sample_accepted
  exact ⟨_, (analysis_ok (lookup_resolved sample_raw hn (sample_noSelf ds' hn)) hd).1⟩

theorem sample_fns {k : Key} {d : FnDef} (h : (progOf sampleState).fns k = some d) : d.body = sampleBody := by
  obtain ⟨N, hi⟩ := sample_inv
  have hk : k < 100 := by
    have : ∃ f, sampleState.fns k = some f := by
      simp only [progOf] at h
      cases hf : sampleState.fns k with
      | none => simp [hf] at h
      | some f => exact ⟨f, rfl⟩
    obtain ⟨f, hf⟩ := this
    have h1 := (hi.fn k f hf).key.2
    have h2 : sampleState.next = 100 := by decide +kernel
    exact h2 ▸ h1
  have hall : ∀ k < 100, k ≠ 4 → ((progOf sampleState).fns k).isNone = true := by
    decide +kernel
  have h4 := sample_body
  by_cases he : k = 4
  · subst he
    rw [h] at h4
    simpa using h4
  · have := hall k hk he
    rw [h] at this
    cases this

/-- The hypotheses of C55 are met. -/
theorem C55_sample : ((functionsOf sample).map AFn.k).Nodup ∧
    (∀ f ∈ functionsOf sample, f.k < 50 ∧ f.instances = []) ∧ Ana.program 100 sample 50 = .ok () sampleState := by
  refine ⟨by decide +kernel, by decide +kernel, sample_accepted⟩

/-- The hypotheses of C56 are met, and the function that is called in the initializer of a constant is
compiled. -/
theorem C56_sample : (progOf sampleState).Homogeneous ∧ (progOf sampleState).Ends ∧
    (progOf sampleState).Fresh ∧ sampleState.code.length ≤ 2 ^ 62 ∧ ((progOf sampleState).fns 4).isSome ∧
    addrOf sampleState 4 = some 0 := by
  refine ⟨fun k d h => ?_, fun k d h => .inl ?_, fun k d h => ?_, by decide +kernel, by decide +kernel,
    by decide +kernel⟩
  · rw [sample_fns h]
    simp [sampleBody, HomogeneousSs, HomogeneousS, Homogeneous, Expr.cv]
  · rw [sample_fns h]
    simp [sampleBody, EndsLast, Ends]
  · rw [sample_fns h]
    simp [sampleBody, FreshAll, Fresh, uninitializedAll, uninitialized]

/-- The hypotheses of C57 are met: the initializer of the constant, which calls a function with a loop,
has the value 12 in the source semantics. -/
theorem C57_sample : ∃ init', SameE (Redirect sampleState) (.call 2 none false ['f'] (some (.node 4)) [lit 3 "3"]) init' ∧
    HasValue (progOf sampleState) init' (CVal.ofInt 12) := by
  obtain ⟨h1, h2, h3, h4, -⟩ := C56_sample
  obtain ⟨⟨ds', hn, hd⟩, -⟩ := C57_values_partial sample_raw sample_noSelf sample_accepted h1 h2 h3 h4
  have hm : ADecl.const_ 1 none ['c'] none (.call 2 none false ['f'] (some (.node 4)) [lit 3 "3"]) ∈ ds' := by
    have : (Names.program sample).bind (fun ds => .ok ds.head?) = .ok (some
        (ADecl.const_ 1 none ['c'] none (.call 2 none false ['f'] (some (.node 4)) [lit 3 "3"]))) := by
      run_tac do
        let g ← Lean.Elab.Tactic.getMainGoal
        let some (_, l, _) := (← g.getType).eq? | throwError "not an equation"
        g.assign (← Lean.Meta.mkEqRefl l)
    rw [hn] at this
    cases ds' with
    | nil => cases this
    | cons d ds' =>
      simp only [Outcome.bind, List.head?_cons, Outcome.ok.injEq, Option.some.injEq] at this
      rw [this]
      exact List.mem_cons_self
  obtain ⟨v, ty', init', a1, a2, a3, -, -, a4⟩ := hd _ hm
  cases a2
  obtain ⟨w, hw, hv⟩ := a4
  have h12 : sampleState.decl 1 = some ⟨.const_, some (Value.known (CVal.ofInt 12))⟩ := by decide +kernel
  rw [h12] at a1
  simp only [Option.some.injEq, Decl.mk.injEq, true_and] at a1 hw
  rw [← a1] at hw
  have : w = CVal.ofInt 12 := by
    obtain ⟨t, x⟩ := w
    simp only [Value.known, CVal.ofInt, Value.mk.injEq, Option.some.injEq] at hw
    simp only [CVal.ofInt, ← hw.1, ← hw.2]
  exact ⟨init', a3, this ▸ hv⟩

end Bms
