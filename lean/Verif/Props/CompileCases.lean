import Verif.Props.Compile

/-!
# Programs that satisfy, and programs that need, the hypotheses of C30 to C33
-/

namespace Bms

open Spec

/-! ## A program with a loop and calls

    function g(n: Int) -> Int { return n + 1; }
    function f(n: Int) -> Int {
        let s: Int = 0;
        let i: Int = 0;
        while i < n { s = s + g(i); i = i + 1; }
        return s;
    }
-/

namespace LoopExample

abbrev int : Option Value := some (Value.unknownOf .int)
def lit (s : String) (x : Int) : Expr := .literal (.integer s.toList) (some (Value.known (CVal.ofInt x)))
def var (k : Key) : Expr := .id int (some (.node k))
def param (k : Key) : Expr := .id int (some (.param k))
def plus (a b : Expr) : Expr := .binary int .binary_plus a b

/-- `n` is 1, `g` is 10. -/
def g : FnDef where
  params := [(1, .int)]
  ret := .int
  body := [.control .return_ int (some (plus (param 1) (lit "1" 1)))]

/-- `n`, `s`, `i` are 2, 3, 4, `f` is 11. -/
def f : FnDef where
  params := [(2, .int)]
  ret := .int
  body :=
    [.let_ 3 (some .int) int (some (lit "0" 0)), .let_ 4 (some .int) int (some (lit "0" 0)),
      .while_ (.binary (some (Value.unknownOf .bool)) .less_than (var 4) (param 2)) (.block
        [.assign int (some (.node 3)) (plus (var 3) (.call int false (some (.node 10)) [var 4])),
          .assign int (some (.node 4)) (plus (var 4) (lit "1" 1))]),
      .control .return_ int (some (var 3))]

def P : Prog where
  fns k := if k = 10 then some g else if k = 11 then some f else none
  consts _ := none

def vars (k : Key) : Option CType := if k = 1 ∨ k = 2 ∨ k = 3 ∨ k = 4 then some .int else none

theorem fns_cases {k : Key} {d : FnDef} (h : P.fns k = some d) : (k = 10 ∧ d = g) ∨ (k = 11 ∧ d = f) := by
  simp only [P] at h
  split at h
  · cases h; exact .inl ⟨‹_›, rfl⟩
  · split at h
    · cases h; exact .inr ⟨‹_›, rfl⟩
    · cases h

theorem ctx_wf : (P.ctx vars).WF := by
  refine ⟨fun k v h => (by cases h), fun k t h => ?_, fun k ts t h => ?_⟩
  · simp only [Prog.ctx, vars] at h
    split at h
    · cases h
      refine ⟨trivial, ?_⟩
      rintro rfl
      revert ‹_ ∨ _›
      decide
    · cases h
  · simp only [Prog.ctx, Option.map_eq_some_iff] at h
    obtain ⟨d, hd, h⟩ := h
    cases h
    rcases fns_cases hd with ⟨-, rfl⟩ | ⟨-, rfl⟩
    · refine ⟨trivial, fun u hu => ?_⟩
      simp [g] at hu; subst hu; trivial
    · refine ⟨trivial, fun u hu => ?_⟩
      simp [f] at hu; subst hu; trivial

theorem typed_lit0 {Γ : Ctx} : Typed Γ (lit "0" 0) := .literal (by decide)
theorem typed_lit1 {Γ : Ctx} : Typed Γ (lit "1" 1) := .literal (by decide)
theorem typed_plus {Γ : Ctx} {a b : Expr} {u v : Value} (ha : Typed Γ a) (hb : Typed Γ b)
    (hu : a.cv = some u) (hv : b.cv = some v) (htu : u = Value.unknownOf .int) (htv : v.type = .int) :
    Typed Γ (plus a b) := by
  subst htu
  obtain ⟨t, x⟩ := v
  cases htv
  exact .binary ha hb hu hv (t := .int) rfl (.inl (by cases x <;> rfl))

theorem typed : P.Typed := by
  have h3 : Typed (P.ctx vars) (var 3) := .var rfl (by decide)
  have h4 : Typed (P.ctx vars) (var 4) := .var rfl (by decide)
  intro k d h
  rcases fns_cases h with ⟨-, rfl⟩ | ⟨-, rfl⟩
  · refine ⟨vars, ctx_wf, by decide, .cons (.return_ (v := Value.unknownOf .int)
      (typed_plus (.param (by decide)) typed_lit1 rfl rfl rfl rfl) rfl (by decide) (.inl rfl)) .nil⟩
  · refine ⟨vars, ctx_wf, by decide, .cons ?_ (.cons ?_ (.cons ?_ (.cons ?_ .nil)))⟩
    · exact .letInit rfl (by decide) typed_lit0 rfl (by decide)
    · exact .letInit rfl (by decide) typed_lit0 rfl (by decide)
    · refine .while_ (v := Value.unknownOf .bool) (.binary h4 (.param (by decide)) rfl rfl (t := .bool)
        (by decide) (.inl rfl)) rfl rfl (.block (.cons ?_ (.cons ?_ .nil)))
      · refine .assign (t := .int) (v := Value.unknownOf .int) rfl (by decide)
          (typed_plus h3 (.call (ts := [.int]) rfl ?_ (.cons ⟨_, rfl, by decide⟩ .nil)) rfl rfl rfl rfl) rfl
          (by decide) (.inl rfl)
        intro a ha
        simp at ha
        subst ha
        exact h4
      · exact .assign (t := .int) (v := Value.unknownOf .int) rfl (by decide)
          (typed_plus h4 typed_lit1 rfl rfl rfl rfl) rfl (by decide) (.inl rfl)
    · exact .return_ (v := Value.unknownOf .int) h3 rfl (by decide) (.inl rfl)

theorem homogeneous : P.Homogeneous := by
  intro k d h
  rcases fns_cases h with ⟨-, rfl⟩ | ⟨-, rfl⟩ <;>
    simp [g, f, HomogeneousSs, HomogeneousS, Homogeneous, HomogeneousAll, plus, var, param, lit, Expr.cv,
      Value.known, Value.unknownOf, CVal.ofInt]

theorem ends : P.Ends := by
  intro k d h
  rcases fns_cases h with ⟨-, rfl⟩ | ⟨-, rfl⟩ <;> exact .inl (by simp [g, f, EndsLast, Ends])

theorem fresh : P.Fresh := by
  intro k d h
  rcases fns_cases h with ⟨-, rfl⟩ | ⟨-, rfl⟩ <;>
    simp [g, f, FreshAll, Fresh, uninitializedAll, uninitialized]

/-- The machine after both functions were loaded. -/
def vm : Vm where
  instructions :=
    [.store 1, .load 1, .push (CVal.ofInt 1), .binary .binary_plus, .ret,
      .store 2, .push (CVal.ofInt 0), .store 3, .push (CVal.ofInt 0), .store 4,
      .load 4, .load 2, .binary .less_than, .jumpIf 10 false,
      .load 3, .load 4, .call 0, .binary .binary_plus, .store 3,
      .load 4, .push (CVal.ofInt 1), .binary .binary_plus, .store 4, .jump (-14),
      .load 3, .ret]
  frames := []
  stack := []
  counter := 0
  cmp := none

def addr (k : Key) : Option Nat := if k = 11 then some 5 else if k = 10 then some 0 else none

theorem loaded : Loaded P addr vm.instructions := by
  have h1 := Loaded.add (k := 10) (f := g) (.empty (P := P)) rfl rfl (prog' := vm.instructions.take 5)
    (a := 0) (by rfl)
  have h2 := Loaded.add (k := 11) (f := f) h1 rfl rfl (prog' := vm.instructions) (a := 5) (by rfl)
  exact h2

/-- `f(3)` is 6, in the reference semantics and in the machine. -/
example : P.callN 5 11 [CVal.ofInt 3] = .ok (CVal.ofInt 6) ∧
    constantCall vm 5 [CVal.ofInt 3] 100 = some (.ok (CVal.ofInt 6)) := by
  constructor <;> decide +kernel

/-- The hypotheses of `C31_calls_partial` are met, for all integer arguments. -/
example {x : Int} (hx : InI128 x) (o : Outcome ExecErr CVal) :
    (∃ m, constantCall vm 5 [CVal.ofInt x] m = some o) ↔
      ∃ n, (P.callN n 11 [CVal.ofInt x]).outcome = some o :=
  C31_calls_partial typed homogeneous ends fresh loaded (by decide) (f := f) rfl rfl
    (vs := [CVal.ofInt x]) (.cons ⟨rfl, trivial, hx⟩ .nil) o

/-- Code behind the functions, in a call where `s` is 7, with something on the stack. -/
def codeVm (code : List Instr) : Vm where
  instructions := vm.instructions ++ (code ++ [.ret])
  frames := [⟨3, CVal.ofInt 7⟩]
  stack := [CVal.tt]
  counter := 26
  cmp := none

theorem running {code : List Instr} (hl : code.length ≤ 100) (hok : ∀ i ∈ code, InstrOk i)
    (hb : BranchesInside (code ++ [.ret])) : Running P vars addr (codeVm code) code := by
  have hlen : (codeVm code).instructions.length = code.length + 27 := by
    simp only [codeVm, List.length_append, List.length_cons, List.length_nil]
    rw [show vm.instructions.length = 26 by rfl]; omega
  refine ⟨typed, homogeneous, ends.returns, ctx_wf, ⟨?_, ?_, ?_, ?_⟩, ?_,
    ⟨vm.instructions, [], [.ret], loaded, by simp [codeVm], rfl, by simp⟩, ?_⟩
  · rw [hlen]; omega
  · intro i hi
    simp only [codeVm, List.mem_append, List.mem_singleton] at hi
    rcases hi with hi | hi | rfl
    · exact loaded.instrOk typed (by decide) i hi
    · exact hok i hi
    · trivial
  · intro v hv
    simp [codeVm] at hv
    subst hv
    exact ofBool_wf true
  · intro e he
    simp [codeVm] at he
    subst he
    exact ⟨trivial, by decide⟩
  · intro i o b h
    have hb' := loaded.branches ends
    simp only [codeVm, List.getElem?_append (l₁ := vm.instructions)] at h
    split at h
    · have := hb' i o b h
      simp only [codeVm, List.length_append]
      omega
    · have := hb _ o b h
      simp only [codeVm, List.length_append] at this ⊢
      omega
  · intro k v h
    simp only [Vm.config, codeVm, MapStack.frames] at h
    simp only [show ¬ (3 : Nat) = sentinelKey by decide, if_false, Frame.set, Frame.empty] at h
    split at h
    · rename_i hk
      cases h
      subst hk
      exact ⟨rfl, trivial, by decide⟩
    · cases h

theorem noBranches {code : List Instr} (h : code.all fun | .jumpIf _ _ => false | _ => true) :
    BranchesInside code := by
  intro i o b hi
  exact absurd (List.all_eq_true.1 h _ (List.mem_of_getElem? hi)) (by simp)

/-- `g(4)`, in `C30_expressions_partial`. -/
def exprG : Expr := .call int false (some (.node 10)) [lit "4" 4]

example (n : Nat) : Runs P.Fresh (n - 1) (codeVm [.push (CVal.ofInt 4), .call 0])
    (evalE (P.meaning (P.callN n)) exprG (codeVm []).config.vars.top) fun v vm' =>
      vm'.config = ⟨(codeVm []).config.vars, v :: [CVal.tt], 28⟩ :=
  C30_expressions_partial (running (by decide) (by simp [InstrOk, WF, CVal.ofInt, CType.WF]; decide)
      (noBranches rfl))
    (.call (ts := [.int]) rfl
      (fun a ha => by simp at ha; subst ha; exact .literal (by decide)) (.cons ⟨_, rfl, by decide⟩ .nil))
    (by simp [Homogeneous, HomogeneousAll, lit]) ⟨[], by rfl⟩ n

example : evalE (P.meaning (P.callN 1)) exprG (codeVm []).config.vars.top = .ok (CVal.ofInt 5) := by
  decide +kernel

/-- `0 < s || 1 / 0 < 1`, in `C32_operands_partial`. -/
def exprOr : Expr :=
  .binary (some (Value.unknownOf .bool)) .logical_or
    (.binary (some (Value.unknownOf .bool)) .less_than (lit "0" 0) (var 3))
    (.binary (some (Value.unknownOf .bool)) .less_than (.binary int .division (lit "1" 1) (lit "0" 0))
      (lit "1" 1))

def exprOrCode : List Instr :=
  [.push (CVal.ofInt 0), .load 3, .binary .less_than, .jumpIf 6 true, .push (CVal.ofInt 1),
    .push (CVal.ofInt 0), .binary .division, .push (CVal.ofInt 1), .binary .less_than, .jump 1,
    .push CVal.tt]

theorem exprOr_code : CodeOfExpr (P.env addr) exprOr exprOrCode := ⟨[], by rfl⟩

theorem running_or : Running P vars addr (codeVm exprOrCode) exprOrCode := by
  refine running (by decide) ?_ ?_
  · intro i hi
    simp only [exprOrCode, List.mem_cons, List.not_mem_nil, or_false] at hi
    rcases hi with rfl | rfl | rfl | rfl | rfl | rfl | rfl | rfl | rfl | rfl | rfl <;>
      first | trivial | exact ⟨trivial, by decide⟩ | exact ofBool_wf true | (unfold InstrOk; decide)
  · intro i o b h
    have hi := (List.getElem?_eq_some_iff.1 h).1
    have hi : i < 12 := hi
    match i, hi with
    | 0, _ | 1, _ | 2, _ | 4, _ | 5, _ | 6, _ | 7, _ | 8, _ | 9, _ | 10, _ | 11, _ => cases h
    | 3, _ => cases h; decide

example (n : Nat) : Runs P.Fresh (n - 1) (codeVm exprOrCode) (.ok CVal.tt) fun v vm' =>
    vm'.config = ⟨(codeVm exprOrCode).config.vars, v :: [CVal.tt], 26 + exprOrCode.length⟩ :=
  C32_operands_partial running_or (.inl rfl) (b := true)
    (.binary (.binary typed_lit0 (.var rfl (by decide)) rfl rfl (t := .bool) (by decide) (.inl rfl))
      (.binary (.binary typed_lit1 typed_lit0 rfl rfl (t := .int) (by decide)
        (.inr ⟨⟨.division_by_zero, by decide⟩, rfl⟩)) typed_lit1 rfl rfl (t := .bool) (by decide) (.inl rfl))
      rfl rfl (t := .bool) (by decide) (.inl rfl))
    (by simp [Homogeneous, lit]) exprOr_code (by rfl)

/-- `C32_short_circuit` for this code, three cycles after its beginning. -/
example : ∃ vm', (codeVm exprOrCode).steps 5 = some vm' ∧ vm'.stack = [CVal.tt, CVal.tt] ∧
    vm'.counter = 26 + exprOrCode.length := by
  obtain ⟨cl, cr, i, j, hl, -, -, h⟩ := C32_short_circuit (.inl rfl) exprOr_code
  have := codeOfExpr_iff.1 hl
  obtain rfl : [.push (CVal.ofInt 0), .load 3, .binary .less_than] = cl := Outcome.ok.inj this
  have hs : (codeVm exprOrCode).steps 3 = some { codeVm exprOrCode with
      stack := [CVal.tt, CVal.tt], counter := 29 } := by decide +kernel
  have hk := C26_invariant_steps running_or.ok hs
  obtain ⟨vm', h1, -, h3⟩ := (h _ vm.instructions [.ret] CVal.tt [CVal.tt] hk (by simp [codeVm])
    (by simp) rfl).1 rfl rfl
  refine ⟨vm', ?_, congrArg Config.stack h3, congrArg Config.pc h3⟩
  rw [show 5 = 3 + 2 by rfl, steps_add, hs]
  exact h1

/-- `s = s + 1`, in `C31_statements_partial` and `C33_variables_partial`. -/
example : ∃ m vm', (codeVm [.load 3, .push (CVal.ofInt 1), .binary .binary_plus, .store 3]).steps m = some vm' ∧
    ∃ v, vm'.config.vars.top 3 = some v ∧ v.type = .int := by
  have hf : (P.Fresh ∧ True ∧ ∀ k ∈ ([] : List Key), True) := ⟨fresh, trivial, fun _ _ => trivial⟩
  obtain ⟨m, vm', h1, -, h2, -⟩ := C33_variables_partial
    (st := .assign int (some (.node 3)) (plus (var 3) (lit "1" 1))) (ret := .int)
    (running (code := [.load 3, .push (CVal.ofInt 1), .binary .binary_plus, .store 3]) (by decide)
      (by simp [InstrOk, WF, CVal.ofInt, CType.WF]; decide) (noBranches rfl)) trivial
    (.assign (t := .int) (v := Value.unknownOf .int) rfl (by decide)
      (typed_plus (.var rfl (by decide)) typed_lit1 rfl rfl rfl rfl) rfl (by decide) (.inl rfl))
    (by simp [HomogeneousS, Homogeneous, plus, var, lit, Expr.cv]) ⟨[], by rfl⟩ (n := 1) (fuel := 1)
    (Nat.le_refl _) (σ := (codeVm []).config.vars.top.set 3 (CVal.ofInt 8)) (by rfl)
  obtain ⟨v, h3, h4, -⟩ := h2 3 (by simp [Frame.set])
  exact ⟨m, vm', h1, v, h3, (Option.some.inj h4).symm⟩

end LoopExample

/-! ## Programs that are not executed as they say

Each of the following functions is well-typed; their sources are given. -/

/-- A program with one function, of key 10. -/
def single (f : FnDef) : Prog where
  fns k := if k = 10 then some f else none
  consts _ := none

theorem single_typed {f : FnDef} {vars : Key → Option CType} (hr : f.ret.WF)
    (hv : ∀ k t, vars k = some t → t.WF ∧ k ≠ sentinelKey)
    (hp : ∀ p ∈ f.params, vars p.1 = some p.2)
    (ht : TypedSs ((single f).ctx vars) f.ret false f.body) : (single f).Typed := by
  intro k d h
  simp only [single] at h
  split at h
  · cases h
    refine ⟨vars, ⟨fun k v h => (by cases h), hv, fun k ts t h => ?_⟩, hp, ht⟩
    simp only [Prog.ctx, single] at h
    split at h
    · cases h
      refine ⟨hr, fun u hu => ?_⟩
      simp only [List.mem_map] at hu
      obtain ⟨p, hp', rfl⟩ := hu
      exact (hv _ _ (hp p hp')).1
    · cases h
  · cases h

/-- The machine with only this function. -/
def machine (code : List Instr) : Vm := ⟨code, [], [], 0, none⟩

theorem single_loaded {f : FnDef} {code : List Instr}
    (h : loadFunction ((single f).env fun _ => none) f.node [] = .ok (code, 0)) :
    Loaded (single f) (fun j => if j = 10 then some 0 else none) (machine code).instructions :=
  Loaded.add (k := 10) (f := f) (.empty (P := single f)) rfl rfl h

namespace Violations

open LoopExample (lit)

abbrev u8 : CType := .uint 8

def vars3 (t : CType) (k : Key) : Option CType := if k = 1 then some t else if k = 2 then some .bool else none

theorem vars3_ok {t : CType} (h : t.WF) (k : Key) (u : CType) (hk : vars3 t k = some u) :
    u.WF ∧ k ≠ sentinelKey := by
  unfold vars3 at hk
  split at hk
  · rename_i h1; cases hk; subst h1; exact ⟨h, by decide⟩
  · split at hk
    · rename_i h1; cases hk; subst h1; exact ⟨trivial, by decide⟩
    · cases hk

/-- `function f(x: Uint(8), c: Bool) -> Uint(8) { return x if c else 1; }` -/
def conditional : FnDef where
  params := [(1, u8), (2, .bool)]
  ret := u8
  body := [.control .return_ (some (Value.unknownOf u8))
    (some (.ite (some (Value.unknownOf u8)) (.id (some (Value.unknownOf u8)) (some (.param 1)))
      (.id (some (Value.unknownOf .bool)) (some (.param 2))) (lit "1" 1)))]

def conditionalCode : List Instr :=
  [.store 2, .store 1, .load 2, .jumpIf 2 false, .load 1, .jump 1, .push (CVal.ofInt 1), .ret]

end Violations

open Violations LoopExample in
/-- **C30, C31, violated.** In a conditional expression, the branch is not converted to the type of
the expression: `f(0, false)` is the `Int` 1, not the `Uint(8)` 1. -/
theorem C30_conditional_violation :
    (single conditional).Typed ∧
    Loaded (single conditional) (fun j => if j = 10 then some 0 else none)
      (machine conditionalCode).instructions ∧
    (single conditional).callN 1 10 [⟨u8, 0⟩, CVal.ff] = .ok ⟨u8, 1⟩ ∧
    constantCall (machine conditionalCode) 0 [⟨u8, 0⟩, CVal.ff] 9 = some (.ok ⟨.int, 1⟩) := by
  refine ⟨single_typed (vars := vars3 u8) (by decide) (vars3_ok (by decide)) (by decide)
    (.cons (.return_ (v := Value.unknownOf u8) (.ite (.param (by decide)) (.param (by decide))
      typed_lit1 rfl rfl rfl (t := u8) (by decide) (.inl rfl)) rfl (by decide) (.inl rfl)) .nil),
    single_loaded (by rfl), by decide +kernel, by decide +kernel⟩

namespace Violations

open LoopExample (lit)

/-- `function f() -> Uint(8) { let x: Uint(8) = 255; x = x + 1; return x; }` -/
def storing : FnDef where
  params := []
  ret := u8
  body :=
    [.let_ 1 (some u8) (some (Value.unknownOf u8)) (some (lit "255" 255)),
      .assign (some (Value.unknownOf u8)) (some (.node 1)) (.binary (some (Value.unknownOf u8)) .binary_plus
        (.id (some (Value.unknownOf u8)) (some (.node 1))) (lit "1" 1)),
      .control .return_ (some (Value.unknownOf u8)) (some (.id (some (Value.unknownOf u8)) (some (.node 1))))]

def storingCode : List Instr :=
  [.push (CVal.ofInt 255), .store 1, .load 1, .push (CVal.ofInt 1), .binary .binary_plus, .store 1,
    .load 1, .ret]

end Violations

open Violations LoopExample in
/-- **C31, C33, violated.** Values are stored without conversion to the type of the variable: the
variable `x`, declared as `Uint(8)`, holds the `Int` 255 and then 256, and arithmetic on it does not
wrap around. -/
theorem C33_violation :
    (single storing).Typed ∧
    Loaded (single storing) (fun j => if j = 10 then some 0 else none) (machine storingCode).instructions ∧
    (single storing).callN 1 10 [] = .ok ⟨u8, 0⟩ ∧
    constantCall (machine storingCode) 0 [] 9 = some (.ok ⟨.int, 256⟩) ∧
    ∃ vm, (machine storingCode).steps 6 = some vm ∧ vm.config.vars.top 1 = some ⟨.int, 256⟩ := by
  have hx : Typed ((single storing).ctx (vars3 u8)) (.id (some (Value.unknownOf u8)) (some (.node 1))) :=
    .var rfl (by decide)
  refine ⟨single_typed (vars := vars3 u8) (by decide) (vars3_ok (by decide)) (by decide) ?_,
    single_loaded (by rfl), by decide +kernel, by decide +kernel,
    ⟨storingCode, [⟨1, ⟨.int, 256⟩⟩], [], 6, none⟩, by decide +kernel, by decide +kernel⟩
  refine .cons (.letInit rfl (by decide) (.literal (by decide)) rfl (by decide)) (.cons ?_ (.cons ?_ .nil))
  · exact .assign (v := Value.unknownOf u8) (t := u8) rfl (by decide) (.binary hx typed_lit1 rfl rfl (t := u8)
      (by decide) (.inl rfl)) rfl (by decide) (.inl rfl)
  · exact .return_ (v := Value.unknownOf u8) hx rfl (by decide) (.inl rfl)

namespace Violations

open LoopExample (lit)

/-- `function f() -> Int { while true { return 1; } }` -/
def looping : FnDef where
  params := []
  ret := .int
  body := [.while_ (.literal .true_ (some (Value.known CVal.tt)))
    (.block [.control .return_ (some (Value.known (CVal.ofInt 1))) (some (lit "1" 1))])]

def loopingCode : List Instr :=
  [.push CVal.tt, .jumpIf 3 false, .push (CVal.ofInt 1), .ret, .jump (-5)]

end Violations

open Violations LoopExample in
/-- **C31, violated.** The machine rejects a conditional jump to the end of the program even if the
jump is not taken: a function at the end of the program that ends with a loop does not work. -/
theorem C31_end_violation :
    (single looping).Typed ∧
    Loaded (single looping) (fun j => if j = 10 then some 0 else none) (machine loopingCode).instructions ∧
    (single looping).callN 1 10 [] = .ok (CVal.ofInt 1) ∧
    constantCall (machine loopingCode) 0 [] 9 = some (.err .jump_out_of_program) := by
  refine ⟨single_typed (vars := fun _ => none) trivial (fun k t h => by cases h) (by decide) ?_,
    single_loaded (by rfl), by decide +kernel, by decide +kernel⟩
  exact .cons (.while_ (.literal (by decide)) rfl rfl (.block (.cons (.return_ typed_lit1 rfl (by decide)
    (.inl rfl)) .nil))) .nil

namespace Violations

open LoopExample (lit int var plus)

def less (a b : Expr) : Expr := .binary (some (Value.unknownOf .bool)) .less_than a b

/-- `function f() -> Int { let i: Int = 0; let r: Int = 0; while i < 2 { let x: Int;
if 0 < i { r = x; } x = 5; i = i + 1; } return r; }`; `i`, `r`, `x` are 1, 2, 3. -/
def stale : FnDef where
  params := []
  ret := .int
  body :=
    [.let_ 1 (some .int) int (some (lit "0" 0)), .let_ 2 (some .int) int (some (lit "0" 0)),
      .while_ (less (var 1) (lit "2" 2)) (.block
        [.let_ 3 (some .int) int none,
          .ifThen (less (lit "0" 0) (var 1)) (.block [.assign int (some (.node 2)) (var 3)]),
          .assign (some (Value.known (CVal.ofInt 5))) (some (.node 3)) (lit "5" 5),
          .assign int (some (.node 1)) (plus (var 1) (lit "1" 1))]),
      .control .return_ int (some (var 2))]

def staleCode : List Instr :=
  [.push (CVal.ofInt 0), .store 1, .push (CVal.ofInt 0), .store 2,
    .load 1, .push (CVal.ofInt 2), .binary .less_than, .jumpIf 13 false,
    .push (CVal.ofInt 0), .load 1, .binary .less_than, .jumpIf 2 false, .load 3, .store 2,
    .push (CVal.ofInt 5), .store 3, .load 1, .push (CVal.ofInt 1), .binary .binary_plus, .store 1,
    .jump (-17), .load 2, .ret]

def staleVars (k : Key) : Option CType := if k = 1 ∨ k = 2 ∨ k = 3 then some .int else none

end Violations

open Violations LoopExample in
/-- **C31, violated.** A declaration without initializer does not make a variable uninitialized: in
the second iteration of a loop the variable still has its value of the first, and reading it is not
reported. -/
theorem C31_stale_violation :
    (single stale).Typed ∧
    Loaded (single stale) (fun j => if j = 10 then some 0 else none) (machine staleCode).instructions ∧
    (single stale).callN 9 10 [] = .fails .load_uninitialized ∧
    constantCall (machine staleCode) 0 [] 99 = some (.ok (CVal.ofInt 5)) := by
  have hv : ∀ k, (k = 1 ∨ k = 2 ∨ k = 3) → Typed ((single stale).ctx staleVars) (var k) := fun k hk =>
    .var rfl (by simp only [Prog.ctx, staleVars, if_pos hk])
  refine ⟨single_typed (vars := staleVars) trivial ?_ (by decide) ?_, single_loaded (by rfl),
    by decide +kernel, by decide +kernel⟩
  · intro k t h
    unfold staleVars at h
    split at h
    · cases h
      refine ⟨trivial, ?_⟩
      rintro rfl
      revert ‹_ ∨ _›
      decide
    · cases h
  · refine .cons (.letInit rfl (by decide) typed_lit0 rfl (by decide)) (.cons (.letInit rfl (by decide)
      typed_lit0 rfl (by decide)) (.cons (.while_ (v := Value.unknownOf .bool) ?_ rfl rfl (.block
        (.cons ?_ (.cons ?_ (.cons ?_ (.cons ?_ .nil)))))) (.cons ?_ .nil)))
    · exact .binary (hv 1 (by decide)) (.literal (by decide)) rfl rfl (t := .bool) (by decide) (.inl rfl)
    · exact .letNone rfl (by decide)
    · refine .ifThen (v := Value.unknownOf .bool) (.binary typed_lit0 (hv 1 (by decide)) rfl rfl (t := .bool)
        (by decide) (.inl rfl)) rfl rfl (.block (.cons ?_ .nil))
      exact .assign (v := Value.unknownOf .int) (t := .int) rfl (by decide) (hv 3 (by decide)) rfl (by decide) (.inl rfl)
    · exact .assign (v := Value.known (CVal.ofInt 5)) (t := .int) rfl (by decide) (.literal (by decide)) rfl (by decide)
        (.inl rfl)
    · exact .assign (v := Value.unknownOf .int) (t := .int) rfl (by decide)
        (typed_plus (hv 1 (by decide)) typed_lit1 rfl rfl rfl rfl) rfl (by decide) (.inl rfl)
    · exact .return_ (v := Value.unknownOf .int) (hv 2 (by decide)) rfl (by decide) (.inl rfl)

namespace Violations

open LoopExample (lit)

/-- `function f(c: Bool) -> Int { if c { return 1; } }` -/
def falling : FnDef where
  params := [(2, .bool)]
  ret := .int
  body := [.ifThen (.id (some (Value.unknownOf .bool)) (some (.param 2)))
    (.block [.control .return_ (some (Value.known (CVal.ofInt 1))) (some (lit "1" 1))])]

/-- `function g() -> Int { return 5; }` -/
def next : FnDef where
  params := []
  ret := .int
  body := [.control .return_ (some (Value.known (CVal.ofInt 5))) (some (lit "5" 5))]

/-- `f` is 10, `g` is 11. -/
def fallingProg : Prog where
  fns k := if k = 10 then some falling else if k = 11 then some next else none
  consts _ := none

def fallingCode : List Instr :=
  [.store 2, .load 2, .jumpIf 2 false, .push (CVal.ofInt 1), .ret, .push (CVal.ofInt 5), .ret]

def fallingAddr (j : Key) : Option Nat := if j = 11 then some 5 else if j = 10 then some 0 else none

end Violations

open Violations LoopExample in
/-- **C31, violated.** Nothing keeps a function with a result from reaching the end of its body
without `return`; it then continues with the code of whatever function was compiled next. Here `f(false)`
has the result 5 of `g`, which it does not call. -/
theorem C31_fallthrough_violation :
    fallingProg.Typed ∧ Loaded fallingProg fallingAddr (machine fallingCode).instructions ∧
    (∀ n, fallingProg.callN (n + 1) 10 [CVal.ff] = .stuck) ∧
    constantCall (machine fallingCode) 0 [CVal.ff] 9 = some (.ok (CVal.ofInt 5)) := by
  refine ⟨?_, ?_, fun n => by rfl, by decide +kernel⟩
  · have hwf : (fallingProg.ctx (vars3 .int)).WF := by
      refine ⟨fun k v h => (by cases h), vars3_ok trivial, fun k ts t h => ?_⟩
      simp only [Prog.ctx, fallingProg] at h
      split at h
      · cases h
        refine ⟨trivial, fun u hu => ?_⟩
        simp [falling] at hu
        subst hu; trivial
      · split at h
        · cases h
          exact ⟨trivial, fun u hu => by simp [next] at hu⟩
        · cases h
    intro k d h
    simp only [fallingProg] at h
    split at h
    · cases h
      exact ⟨vars3 .int, hwf, by decide, .cons (.ifThen (.param (by decide)) rfl rfl (.block
        (.cons (.return_ typed_lit1 rfl (by decide) (.inl rfl)) .nil))) .nil⟩
    · split at h
      · cases h
        exact ⟨vars3 .int, hwf, by decide, .cons (.return_ (.literal (by decide)) rfl (by decide) (.inl rfl)) .nil⟩
      · cases h
  · have h1 : Loaded fallingProg (fun j => if j = 10 then some 0 else none) (fallingCode.take 5) :=
      .add (k := 10) (f := falling) .empty rfl rfl (by rfl)
    exact .add (k := 11) (f := next) h1 rfl rfl (by rfl)

end Bms
