import Verif.Lemmas.FiniteProgram
import Verif.Props.Blame

/-!
# C58: analysis ends if constant expressions only call functions that end
-/

namespace Bms

open Spec Parse

/-- The code of no function is known yet. -/
def Spec.NoCode (ds : List ADecl) : Prop := ∀ f, .function f ∈ ds → f.address = none

theorem noCode_strip {ds ds' : List ADecl} (h : ds'.map stripD = ds.map stripD) (ha : NoCode ds) : NoCode ds' := by
  intro f hf
  have h1 : ADecl.function (stripF f) ∈ ds.map stripD := by
    rw [← h]
    exact List.mem_map.2 ⟨_, hf, rfl⟩
  obtain ⟨d, hd, he⟩ := List.mem_map.1 h1
  cases d with
  | function g =>
    simp only [stripD, ADecl.function.injEq] at he
    have h2 := ha g hd
    have h3 : (stripF g).address = (stripF f).address := by rw [he]
    rw [← show (stripF f).address = f.address from rfl, ← h3]
    exact h2
  | const_ => simp [stripD] at he
  | staticAssert => simp [stripD] at he

/-- **C58, with calls** (partial: constant expressions must only call functions that have no loops and that return,
see `C58_constant_violation` and `C58_fallthrough_violation`, and that are not generic; widths in signatures must
not have calls, see `C58_signature_violation`; the program must be small enough for the addresses of instructions). All
other functions may have loops, call themselves, call generic functions and so on. If names are as they should
be, analysis ends. -/
theorem C58_calls_partial {ds ds' : List ADecl} {next : Nat} {L : Key → Prop} (h : RawProgram ds next)
    (hr : FreshParams ds) (ha : NoCode ds) (hn : Names.program ds = .ok ds') (hc : CallsEnding ds' L)
    (hsmall : 4 * (ds'.flatMap nodeKeys).length < 2 ^ 63) :
    ∃ M r, r ≠ .timeout ∧ ∀ n, M ≤ n → Ana.program n ds next = r := by
  have hg : BGiven ds' next := ⟨rawProgram_strip h (lookup_strip hn),
    Names.program_low (fun d hd k hk => (h.keys k (List.mem_flatMap.2 ⟨d, hd, hk⟩)).1) hr hn⟩
  have hi := initial_good hg (noCode_strip (lookup_strip hn) ha)
  obtain ⟨M, r, h2, h1, -⟩ := programF hg hsmall hc ds' (fun _ h => h) (initial_bl hg) hi.1 hi.2
  refine ⟨M, r, h2, fun n hm => ?_⟩
  simp only [Ana.program, hn]
  exact h1 n hm

theorem noCodeDecls {ds : List ADecl} : ∀ ts, DeclsIs ts ds → NoCode ds := by
  induction ds with
  | nil => intro _ _ f hf; cases hf
  | cons d ds ih =>
    intro ts h f hf
    cases h with | cons h1 h2 =>
    rcases List.mem_cons.1 hf with rfl | hf
    · cases h1 with | function h1 =>
      cases h1 with | mk hps _ _ _ => rfl
    · exact ih _ h2 f hf

/-- A text that is analyzed with one bound is analyzed with every other. -/
theorem compile_all {n : Nat} {src : List Char} {ds : List ADecl} {r : ARes Unit}
    (hx : compile n src = .analyzed ds r) :
    ∃ t next, ProgramIs t ds ∧ (PlainSignatures ds → RawProgram ds next) ∧
      ∀ m, compile m src = .analyzed ds (Ana.program m ds next) := by
  cases hk : tokenize src with
  | none => simp [compile, hk] at hx
  | some p =>
    obtain ⟨ts, r'⟩ := p
    cases r' with
    | ok u =>
      cases hp : parse src ts with
      | ok nodes root =>
        have hv := C60_violation hp
        have hg : ∀ k ∈ ts, k.type ≠ .greater_or_equal := by
          intro k hm e
          have := hv.1.2 ⟨k, hm, e⟩
          simp [compile, hk, hp, this] at hx
        obtain ⟨t, ds', -, -, h3, h4, -, h6⟩ := C60_tree_partial hp hg
        simp only [compile, hk, hp, h3, CompileResult.analyzed.injEq] at hx
        obtain ⟨rfl, rfl⟩ := hx
        exact ⟨t, _, h4, h6, fun m => by simp only [compile, hk, hp, h3]⟩
      | err e => simp [compile, hk, hp] at hx
      | throws => simp [compile, hk, hp] at hx
      | diverge => simp [compile, hk, hp] at hx
    | err e => simp [compile, hk] at hx
    | throws => simp [compile, hk] at hx
    | ub => simp [compile, hk] at hx

/-- **C58 for texts** (partial in the ways of `C58_calls_partial`): the analysis of a text ends, with a result
that does not depend on how long one is willing to wait. -/
theorem C58_text_partial {n : Nat} {src : List Char} {ds : List ADecl} {r : ARes Unit} {L : Key → Prop}
    (hx : compile n src = .analyzed ds r) (hp : PlainSignatures ds)
    (hc : ∀ ds', Names.program ds = .ok ds' → CallsEnding ds' L ∧ 4 * (ds'.flatMap nodeKeys).length < 2 ^ 63) :
    ∃ M r, r ≠ .timeout ∧ ∀ m, M ≤ m → compile m src = .analyzed ds r := by
  obtain ⟨t, next, h1, h2, h3⟩ := compile_all hx
  obtain ⟨hf, ha⟩ : FreshParams ds ∧ NoCode ds := by
    cases h1 with | mk h => exact ⟨freshDecls _ h, noCodeDecls _ h⟩
  cases hn : Names.program ds with
  | ok ds' =>
    obtain ⟨M, r, h4, h5⟩ := C58_calls_partial (h2 hp) hf ha hn (hc ds' hn).1 (hc ds' hn).2
    exact ⟨M, r, h4, fun m hm => by rw [h3, h5 m hm]⟩
  | err e => exact ⟨0, .err e, by simp, fun m _ => by simp [h3, Ana.program, hn]⟩
  | throws => exact ⟨0, .throws, by simp, fun m _ => by simp [h3, Ana.program, hn]⟩
  | ub => exact ⟨0, .ub, by simp, fun m _ => by simp [h3, Ana.program, hn]⟩

/-! ## Cases -/

open Programs

/-- `const c = twice(3);`
`function less(x: Int, y: Int) -> Int { if x < y { return x; } else { return y; } }`
`function twice(x: Int) -> Int { let r: Int = 0; r = less(x, 9) + x; return r; }`
`function spin(x: Int) -> Int { while true { } return x + less(c, x); }` -/
def chain : List ADecl :=
  [const_ 1 "c" none (call 2 "twice" [lit 3 "3"]),
    .function (fn 4 "less" [param 5 "x" (int 6), param 7 "y" (int 8)] (int 9) 10
      [.ifElse 11 none (binary 12 .less_than (name 13 "x") (name 14 "y"))
        (.block 15 none [return_ 16 (name 17 "x")]) (.block 18 none [return_ 19 (name 20 "y")])]),
    .function (fn 21 "twice" [param 22 "x" (int 23)] (int 24) 25
      [let_ 26 "r" (some (int 27)) (lit 28 "0"),
        .assign 29 none ['r'] none (binary 30 .binary_plus (call 31 "less" [name 32 "x", lit 33 "9"]) (name 34 "x")),
        return_ 35 (name 36 "r")]),
    .function (fn 37 "spin" [param 38 "x" (int 39)] (int 40) 41
      [.while_ 42 none (true_ 43) (.block 44 none []),
        return_ 45 (binary 46 .binary_plus (name 47 "x") (call 48 "less" [name 49 "c", name 50 "x"]))])]

/-- A name that refers to a node. -/
def at_ (k : Key) (t : String) (j : Key) : AExpr := .id k none t.toList (some (.node j)) false

/-- A name that refers to a parameter. -/
def par_ (k : Key) (t : String) (j : Key) : AExpr := .id k none t.toList (some (.param j)) false

/-- A call of the function at a node. -/
def to_ (k : Key) (t : String) (j : Key) (es : List AExpr) : AExpr := .call k none false t.toList (some (.node j)) es

/-- The declarations of `chain` after name lookup. -/
def chainDecls : List ADecl :=
  [const_ 1 "c" none (to_ 2 "twice" 21 [lit 3 "3"]),
    .function (fn 4 "less" [param 5 "x" (int 6), param 7 "y" (int 8)] (int 9) 10
      [.ifElse 11 none (binary 12 .less_than (par_ 13 "x" 5) (par_ 14 "y" 7))
        (.block 15 none [return_ 16 (par_ 17 "x" 5)]) (.block 18 none [return_ 19 (par_ 20 "y" 7)])]),
    .function (fn 21 "twice" [param 22 "x" (int 23)] (int 24) 25
      [let_ 26 "r" (some (int 27)) (lit 28 "0"),
        .assign 29 none ['r'] (some (.node 26))
          (binary 30 .binary_plus (to_ 31 "less" 4 [par_ 32 "x" 22, lit 33 "9"]) (par_ 34 "x" 22)),
        return_ 35 (at_ 36 "r" 26)]),
    .function (fn 37 "spin" [param 38 "x" (int 39)] (int 40) 41
      [.while_ 42 none (true_ 43) (.block 44 none []),
        return_ 45 (binary 46 .binary_plus (par_ 47 "x" 38) (to_ 48 "less" 4 [at_ 49 "c" 1, par_ 50 "x" 38]))])]

/-- The hypotheses are met by a program whose constant is computed by functions that call each other, with
branches; another function has a loop without end. It is accepted, with the right value. -/
theorem C58_calls_sample : RawProgram chain 60 ∧ FreshParams chain ∧ NoCode chain ∧ Names.program chain = .ok chainDecls ∧
    CallsEnding chainDecls (fun k => k = 4 ∨ k = 21) ∧ 4 * (chainDecls.flatMap nodeKeys).length < 2 ^ 63 ∧
    ∃ M, ∀ n, M ≤ n → verdict (Ana.program n chain 60) = .accepted ∧
      valueOf 1 (Ana.program n chain 60) = some ⟨.const_, some (Value.known (CVal.ofInt 6))⟩ := by
  have h1 : RawProgram chain 60 := by
    refine ⟨?_, by decide, by decide⟩
    simp only [chain, List.forall_mem_cons, List.not_mem_nil, false_imp_iff, implies_true, and_true, RawD]
    refine ⟨by simp [const_, call, RawE, RawEs, lit], ?_, ?_, ?_⟩ <;> constructor <;>
    simp [fn, param, int, lit, name, call, return_, binary, let_, true_, RawT, RawE, RawEs, RawS, RawSs, CallFree, CallFreeT]
  have h2 : FreshParams chain := by
    simp [FreshParams, chain, const_, fn, param, int, refsT]
  have h3 : NoCode chain := by
    simp [NoCode, chain, const_, fn]
  have h4 : Names.program chain = .ok chainDecls := by rfl
  have h5 : CallsEnding chainDecls (fun k => k = 4 ∨ k = 21) := by
    constructor
    · simp [chainDecls, const_, fn, to_, at_, par_, lit, binary, return_, let_, int, true_, constCallsD, constCallsSs,
        constCallsS, callsO, callsE, callsEs, callsT, widthCallsE, widthCallsEs, calledKey]
    · simp [chainDecls, const_, fn]
    · simp [chainDecls, const_, fn, LoopFreeSs, LoopFreeS, let_, return_]
    · simp [chainDecls, const_, fn, ReturnsSs, ReturnsS, let_, return_]
    · simp [chainDecls, const_, fn, to_, at_, par_, lit, binary, return_, let_, int, true_, callsSs, callsS,
        callsO, callsE, callsEs, callsT, calledKey]
  have h6 : 4 * (chainDecls.flatMap nodeKeys).length < 2 ^ 63 := by decide
  refine ⟨h1, h2, h3, h4, h5, h6, ?_⟩
  obtain ⟨M, r, -, hr⟩ := C58_calls_partial h1 h2 h3 h4 h5 h6
  have h60 : Ana.program 60 chain 60 = r := by
    have hv : verdict (Ana.program 60 chain 60) = .accepted := by decide +kernel
    have hne : Ana.program 60 chain 60 ≠ .timeout := by
      intro h
      rw [h] at hv
      cases hv
    have h7 := C58_bound (Nat.le_max_right M 60) hne
    rw [← h7, hr _ (Nat.le_max_left M 60)]
  refine ⟨M, fun n hn => ?_⟩
  rw [hr n hn, ← h60]
  decide +kernel

/-! ## Whether a text meets the hypotheses can be decided -/

mutual

def decCallFree : (e : AExpr) → Decidable (CallFree e)
  | .literal .. => .isTrue trivial
  | .id .. => .isTrue trivial
  | .conversion _ _ e ty =>
    have := decCallFree e
    have := decCallFreeT ty
    inferInstanceAs (Decidable (CallFree e ∧ CallFreeT ty))
  | .ite _ _ l c r =>
    have := decCallFree l
    have := decCallFree c
    have := decCallFree r
    inferInstanceAs (Decidable (CallFree l ∧ CallFree c ∧ CallFree r))
  | .binary _ _ _ l r =>
    have := decCallFree l
    have := decCallFree r
    inferInstanceAs (Decidable (CallFree l ∧ CallFree r))
  | .prefix _ _ _ e => decCallFree e
  | .call .. => .isFalse id

def decCallFreeT : (ty : AType) → Decidable (CallFreeT ty)
  | .base .. => .isTrue trivial
  | .uint _ _ _ w => decCallFree w

end

instance (ty : AType) : Decidable (CallFreeT ty) := decCallFreeT ty

mutual

def decLoopFreeS : (s : AStmt) → Decidable (LoopFreeS s)
  | .ifThen _ _ _ t => decLoopFreeS t
  | .ifElse _ _ _ t e =>
    have := decLoopFreeS t
    have := decLoopFreeS e
    inferInstanceAs (Decidable (LoopFreeS t ∧ LoopFreeS e))
  | .while_ .. => .isFalse id
  | .block _ _ ss => decLoopFreeSs ss
  | .const_ .. => .isTrue trivial
  | .let_ .. => .isTrue trivial
  | .staticAssert .. => .isTrue trivial
  | .control .. => .isTrue trivial
  | .assign .. => .isTrue trivial
  | .call .. => .isTrue trivial

def decLoopFreeSs : (ss : List AStmt) → Decidable (LoopFreeSs ss)
  | [] => .isTrue trivial
  | s :: ss =>
    have := decLoopFreeS s
    have := decLoopFreeSs ss
    inferInstanceAs (Decidable (LoopFreeS s ∧ LoopFreeSs ss))

end

instance (ss : List AStmt) : Decidable (LoopFreeSs ss) := decLoopFreeSs ss

mutual

def decReturnsS : (s : AStmt) → Decidable (ReturnsS s)
  | .control _ _ c _ => inferInstanceAs (Decidable (c = .return_))
  | .ifElse _ _ _ t e =>
    have := decReturnsS t
    have := decReturnsS e
    inferInstanceAs (Decidable (ReturnsS t ∧ ReturnsS e))
  | .block _ _ ss => decReturnsSs ss
  | .ifThen .. => .isFalse id
  | .while_ .. => .isFalse id
  | .const_ .. => .isFalse id
  | .let_ .. => .isFalse id
  | .staticAssert .. => .isFalse id
  | .assign .. => .isFalse id
  | .call .. => .isFalse id

def decReturnsSs : (ss : List AStmt) → Decidable (ReturnsSs ss)
  | [] => .isFalse id
  | s :: ss =>
    have := decReturnsS s
    have := decReturnsSs ss
    inferInstanceAs (Decidable (ReturnsS s ∨ ReturnsSs ss))

end

instance (ss : List AStmt) : Decidable (ReturnsSs ss) := decReturnsSs ss

instance : (ty : AType) → Decidable (VoidT ty)
  | .base _ _ .void => .isTrue trivial
  | .base _ _ .bool => .isFalse id
  | .base _ _ .int => .isFalse id
  | .uint .. => .isFalse id

/-- Whether constant expressions of a program, after name lookup, only call functions of a list that end. -/
def callsEndingB (L : List Key) (ds : List ADecl) : Bool :=
  ds.all (fun d => (constCallsD d).all L.contains) &&
    (functionsOf ds).all fun f => !L.contains f.k ||
      (!f.generic && decide (LoopFreeSs f.body) && decide (VoidT f.ret ∨ ReturnsSs f.body) && (callsSs f.body).all L.contains)

theorem callsEndingB_sound {L : List Key} {ds : List ADecl} (h : callsEndingB L ds = true) :
    CallsEnding ds (fun k => L.contains k = true) := by
  simp only [callsEndingB, Bool.and_eq_true, List.all_eq_true] at h
  have h2 : ∀ f, .function f ∈ ds → L.contains f.k = true → f.generic = false ∧ LoopFreeSs f.body ∧
      (VoidT f.ret ∨ ReturnsSs f.body) ∧ ∀ j ∈ callsSs f.body, L.contains j = true := by
    intro f hf hl
    have := h.2 f (mem_functionsOf.2 hf)
    rw [hl] at this
    simpa [and_assoc] using this
  exact ⟨h.1, fun f hf hl => (h2 f hf hl).1, fun f hf hl => (h2 f hf hl).2.1, fun f hf hl => (h2 f hf hl).2.2.1,
    fun f hf hl => (h2 f hf hl).2.2.2⟩

/-- Whether the types of parameters and results of a program have no calls. -/
def plainB (ds : List ADecl) : Bool :=
  (functionsOf ds).all fun f => (f.params.all fun p => decide (CallFreeT p.type)) && decide (CallFreeT f.ret)

theorem plainB_sound {ds : List ADecl} (h : plainB ds = true) : PlainSignatures ds := by
  intro f hf
  simp only [plainB, List.all_eq_true, Bool.and_eq_true, decide_eq_true_eq] at h
  exact h f (mem_functionsOf.2 hf)

/-- Whether a text is analyzed and meets the hypotheses of `C58_text_partial`. -/
def finiteB (L : List Key) (src : List Char) : Bool :=
  match compile 0 src with
  | .analyzed ds _ => plainB ds &&
    match Names.program ds with
    | .ok ds' => callsEndingB L ds' && decide (4 * (ds'.flatMap nodeKeys).length < 2 ^ 63)
    | _ => true
  | _ => false

/-- **C58 for texts, decided** (partial in the ways of `C58_calls_partial`): a check that looks at the text only, and
runs nothing, is enough to know that analysis ends. -/
theorem C58_decided_partial {L : List Key} {src : List Char} (h : finiteB L src = true) :
    ∃ M ds r, r ≠ .timeout ∧ ∀ m, M ≤ m → compile m src = .analyzed ds r := by
  unfold finiteB at h
  cases hx : compile 0 src with
  | analyzed ds r =>
    rw [hx] at h
    simp only [Bool.and_eq_true] at h
    obtain ⟨M, r, h1, h2⟩ := C58_text_partial (L := fun k => L.contains k = true) hx (plainB_sound h.1) (by
      intro ds' hn
      have := h.2
      rw [hn] at this
      simp only [Bool.and_eq_true, decide_eq_true_eq] at this
      exact ⟨callsEndingB_sound this.1, this.2⟩)
    exact ⟨M, ds, r, h1, h2⟩
  | tokens => rw [hx] at h; cases h
  | syntax_ => rw [hx] at h; cases h
  | throws => rw [hx] at h; cases h
  | impossible => rw [hx] at h; cases h

/-- A text with a constant that is computed by functions with branches, and with a loop elsewhere. -/
def chainText : List Char :=
  "const c = twice(3); function less(x: Int, y: Int) -> Int { if (x < y) { return x; } else { return y; } } function twice(x: Int) -> Int { let r: Int = 0; r = less(x, 9) + x; return r; } function spin(x: Uint(c)) -> Int { while (true) { } return less(c, 4); }".toList

/-- The text passes the check and is accepted; a text with a loop in a function that a constant needs does not pass. -/
theorem C58_decided_sample : finiteB [21, 38] chainText = true ∧ finiteB [] chainText = false ∧
    (match compile 50 chainText with
    | .analyzed _ r => verdict r
    | _ => .timeout) = .accepted ∧ finiteB [] Texts.sample = false := by
  decide +kernel

/-! ## Functions that do not return -/

/-- `const c = g();` `function f() -> Int { let x = 1; }` `function g() -> Int { return f(); }` -/
def falling : List ADecl :=
  [const_ 1 "c" none (call 2 "g" []),
    .function (fn 3 "f" [] (int 4) 5 [let_ 6 "x" none (lit 7 "1")]),
    .function (fn 8 "g" [] (int 9) 10 [return_ 11 (call 12 "f" [])])]

def fallingFn : AFn := fn 8 "g" [] (int 9) 10 [return_ 11 (to_ 12 "f" 3 [])]

/-- The declarations of `falling` after name lookup. -/
def fallingDecls : List ADecl :=
  [const_ 1 "c" none (to_ 2 "g" 8 []), .function (fn 3 "f" [] (int 4) 5 [let_ 6 "x" none (lit 7 "1")]), .function fallingFn]

theorem falling_lookup : Names.program falling = .ok fallingDecls := by rfl

/-- The state after analysis of `g`. -/
def fallingState : ASt :=
  match Ana.function 2 8 .forConst (Ana.initial fallingDecls 50) with
  | .ok _ s => s
  | _ => Ana.initial [] 50

theorem falling_function (n : Nat) :
    Ana.function (n + 2) 8 .forConst (Ana.initial fallingDecls 50) = .ok () fallingState := by rfl

/-- There is no return at the end of `f`: what follows is the code of `g`. -/
theorem falling_code : fallingState.code = [.push (CVal.ofInt 1), .store 6, .call 0, .ret] := by decide +kernel

theorem falling_run : ∀ n frames cmp,
    (⟨fallingState.code, frames, [], 2, cmp⟩ : Vm).run n = none ∧
    (⟨fallingState.code, ⟨sentinelKey, CVal.ofInt 3⟩ :: frames, [], 0, cmp⟩ : Vm).run n = none ∧
    (⟨fallingState.code, ⟨sentinelKey, CVal.ofInt 3⟩ :: frames, [CVal.ofInt 1], 1, cmp⟩ : Vm).run n = none := by
  rw [falling_code]
  intro n
  induction n with
  | zero => intro frames cmp; exact ⟨rfl, rfl, rfl⟩
  | succ n ih =>
    intro frames cmp
    refine ⟨?_, ?_, ?_⟩
    · simp [Vm.run, Vm.cycle, Vm.exec, MapStack.pushFrame]
      exact (ih _ _).2.1
    · simp [Vm.run, Vm.cycle, Vm.exec]
      exact (ih _ _).2.2
    · simp [Vm.run, Vm.cycle, Vm.exec, MapStack.assign, MapStack.find, MapStack.findLoop, sentinelKey]
      exact (ih _ _).1

theorem falling_call (n : Nat) :
    constantCall { Vm.initial with instructions := fallingState.code } 2 [] n = none := by
  have : ({ Vm.initial with instructions := fallingState.code } : Vm).reset.jumpTo (ε := ExecErr) 2 =
      .ok ⟨fallingState.code, [], [], 2, none⟩ := by
    simp [Vm.jumpTo, Vm.reset, falling_code, Vm.initial]
  simp only [constantCall, this, List.foldl_nil, (falling_run _ _ _).1]

/-- `g` after its analysis. -/
def fallingDone : AFn := (fallingState.fns 8).getD fallingFn

/-- **C58** is violated by constants that call functions without `return`, although there is no loop and no function
calls itself. -/
theorem C58_fallthrough_violation (n : Nat) : Ana.program n falling 50 = .timeout := by
  cases n with
  | zero => rfl
  | succ n =>
  cases n with
  | zero => rfl
  | succ n =>
    have hf := falling_function n
    have h0 : (Ana.initial fallingDecls 50).fns 8 = some fallingFn := rfl
    have h1 : fallingState.fns 8 = some fallingDone := rfl
    have hp : fallingFn.params = [] := rfl
    have hg : fallingFn.generic = false := rfl
    have hk : fallingFn.k = 8 := rfl
    have hs : (Ana.initial fallingDecls 50).stack = [] := rfl
    have hl : fallingDone.level = .forConst := rfl
    have hc : fallingDone.cv = some (Value.unknownOf .int) := rfl
    have ha : fallingDone.address = some 2 := rfl
    have hz : 2 < fallingState.code.length := by decide +kernel
    have hcall := falling_call (n + 2)
    have hcl : Ana.callFunction (n + 2) (Ana.function (n + 2)) 2 8 [] .forConst .constant (Ana.initial fallingDecls 50)
        = .timeout := by
      simp [-bind_pure_comp, Ana.callFunction, AM.bind_apply, AM.read_apply, h0, hp, Ana.callee, hg, AM.value_apply, hk,
        AM.assert_apply, hs, hf, h1, hl, hc, ha, hz, Ana.passArgs, AM.deref_apply, AM.pure_apply, hcall, AM.timeout]
    have he : Ana.exprs (n + 2) (Ana.function (n + 2)) [] .forConst .constant (Ana.initial fallingDecls 50) =
        .ok [] (Ana.initial fallingDecls 50) := rfl
    generalize hS : Ana.initial fallingDecls 50 = S at *
    simp [-bind_pure_comp, Ana.program, falling_lookup, hS]
    simp [-bind_pure_comp, fallingDecls, const_, to_, Ana.decls, Ana.decl, AM.bind_apply, Ana.const_, Ana.expr, he, hcl]

end Bms
