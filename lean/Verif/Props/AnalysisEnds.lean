import Verif.Lemmas.AnalyzeEnds
import Verif.Lemmas.AnalyzeFuel
import Verif.Props.AnalysisCases

/-!
# C58: analysis ends for programs without calls in constant expressions
-/

namespace Bms

open Spec

mutual

theorem strip_quietE : (e : AExpr) → (QuietE (stripE e) ↔ QuietE e)
  | .literal .. => by simp [stripE, QuietE]
  | .id .. => by simp [stripE, QuietE]
  | .conversion _ _ e ty => by simp [stripE, QuietE, strip_quietE e, strip_callFreeT ty]
  | .ite _ _ l c r => by simp [stripE, QuietE, strip_quietE l, strip_quietE c, strip_quietE r]
  | .binary _ _ _ l r => by simp [stripE, QuietE, strip_quietE l, strip_quietE r]
  | .prefix _ _ _ e => by simp [stripE, QuietE, strip_quietE e]
  | .call _ _ _ _ _ args => by simp [stripE, QuietE, strip_quietEs args]

theorem strip_quietEs : (es : List AExpr) → (QuietEs (stripEs es) ↔ QuietEs es)
  | [] => by simp [stripEs, QuietEs]
  | e :: es => by simp [stripEs, QuietEs, strip_quietE e, strip_quietEs es]

end

mutual

theorem strip_quietS : (s : AStmt) → (QuietS (stripS s) ↔ QuietS s)
  | .const_ _ _ _ ty e => by simp [stripS, QuietS, strip_callFree, strip_callFreeT]
  | .let_ _ _ _ ty e => by simp [stripS, QuietS, strip_quietE, strip_callFreeT]
  | .staticAssert _ _ e => by simp [stripS, QuietS, strip_callFree]
  | .ifThen _ _ c t => by simp [stripS, QuietS, strip_quietE, strip_quietS t]
  | .ifElse _ _ c t e => by simp [stripS, QuietS, strip_quietE, strip_quietS t, strip_quietS e]
  | .while_ _ _ c b => by simp [stripS, QuietS, strip_quietE, strip_quietS b]
  | .control _ _ _ e => by simp [stripS, QuietS, strip_quietE]
  | .assign _ _ _ _ e => by simp [stripS, QuietS, strip_quietE]
  | .block _ _ ss => by simp [stripS, QuietS, strip_quietSs ss]
  | .call e => by simp [stripS, QuietS, strip_quietE]

theorem strip_quietSs : (ss : List AStmt) → (QuietSs (stripSs ss) ↔ QuietSs ss)
  | [] => by simp [stripSs, QuietSs]
  | s :: ss => by simp [stripSs, QuietSs, strip_quietS s, strip_quietSs ss]

end

theorem strip_quietF (f : AFn) : QuietF (stripF f) ↔ QuietF f := by
  constructor
  · intro h
    refine ⟨fun p hp => ?_, ?_, fun e he => ?_, ?_⟩
    · have := h.params (stripParam p) (List.mem_map.2 ⟨p, hp, rfl⟩)
      simpa [stripParam, strip_callFreeT] using this
    · simpa [stripF, strip_callFreeT] using h.ret
    · have := h.reqs (stripE e) (by simp [stripF, Option.mem_def.1 he])
      simpa [strip_callFree] using this
    · simpa [stripF, strip_quietSs] using h.body
  · intro h
    refine ⟨fun p hp => ?_, ?_, fun e he => ?_, ?_⟩
    · obtain ⟨q, hq, rfl⟩ := List.mem_map.1 hp
      simpa [stripParam, strip_callFreeT] using h.params q hq
    · simpa [stripF, strip_callFreeT] using h.ret
    · cases hr : f.requires_ with
      | none => simp [stripF, hr] at he
      | some e0 =>
        simp only [stripF, hr, Option.map_some, Option.mem_def, Option.some.injEq] at he
        subst he
        rw [strip_callFree]
        exact h.reqs e0 hr
    · simpa [stripF, strip_quietSs] using h.body

theorem strip_quietD (d : ADecl) : QuietD (stripD d) ↔ QuietD d := by
  cases d with
  | const_ k cv name ty init => cases ty <;> simp [stripD, QuietD, strip_callFree, strip_callFreeT]
  | staticAssert k cv e => simp [stripD, QuietD, strip_callFree]
  | function f => simp [stripD, QuietD, strip_quietF]

/-- Name lookup only adds bindings. -/
theorem lookup_strip {ds ds' : List ADecl} (hn : Names.program ds = .ok ds') :
    ds'.map stripD = ds.map stripD := by
  simp only [Names.program, Outcome.bind_eq_ok] at hn
  obtain ⟨t, ht, hn⟩ := hn
  obtain ⟨hh, -⟩ := Scopes.register_ok Scopes.initial_holds ds t ht
  exact (Scopes.decls_ok hh ds ds' hn).2.1

theorem quiet_lookup {ds ds' : List ADecl} (hn : Names.program ds = .ok ds') (hq : ∀ d ∈ ds, QuietD d) :
    ∀ d ∈ ds', QuietD d := by
  intro d hd
  have : stripD d ∈ ds.map stripD := lookup_strip hn ▸ List.mem_map.2 ⟨d, hd, rfl⟩
  obtain ⟨d0, h0, e0⟩ := List.mem_map.1 this
  rw [← strip_quietD, ← e0, strip_quietD]
  exact hq d0 h0

theorem initial_quiet {ds : List ADecl} {next : Nat} (h : RawProgram ds next) (hn : 0 < next)
    (hq : ∀ d ∈ ds, QuietD d) : QuietSt (fun _ => False) (Ana.initial ds next) := by
  have hi : Ana.initial ds next = ds.foldl initStep
      { decl := fun _ => none, fns := fun _ => none, code := [], stack := [], next := next } := rfl
  obtain ⟨-, -, -, b4, -, b6⟩ := initFold ds
    { decl := fun _ => none, fns := fun _ => none, code := [], stack := [], next := next } h.raw h.nodup
  rw [← hi] at b4 b6
  have hf : ∀ j f, (Ana.initial ds next).fns j = some f → .function f ∈ ds ∧ f.k = j := by
    intro j f hf
    rcases b6 j f hf with h | h
    · exact h
    · cases h
  refine ⟨fun j f hj => ?_, fun j f hj => (hf j f hj).2, fun j f hj _ i hm => ?_, fun _ h => h.elim, ?_⟩
  · exact (show QuietF f from hq _ (hf j f hj).1).fn
  · rw [(show RawFn f from h.raw _ (hf j f hj).1).instances] at hm
    cases hm
  · rw [b4]
    exact hn

/-- **C58, for programs without calls in constant expressions.** Analysis ends; calls nested three deep are
enough, and the result does not depend on the bound. Constant expressions are initializers of constants,
static assertions, requires-clauses and widths. (Missing: programs in which constant expressions call
functions; there, analysis runs the functions, and the property is false.) -/
theorem C58_ends_partial {ds : List ADecl} {next : Nat} (h : RawProgram ds next) (hq : ∀ d ∈ ds, QuietD d) :
    ∃ r, r ≠ .timeout ∧ ∀ n, 3 ≤ n → Ana.program n ds next = r := by
  have h3 : Ana.program 3 ds next ≠ .timeout := by
    unfold Ana.program
    cases hn : Names.program ds with
    | ok ds' =>
      cases ds' with
      | nil => simp [Ana.decls]
      | cons d ds' =>
        have hr := rawProgram_strip h (lookup_strip hn)
        have hpos : 0 < next := by
          have : ∃ k, k ∈ (d :: ds').flatMap nodeKeys := by
            cases d <;> simp [nodeKeys, Inst.keys]
          obtain ⟨k, hk⟩ := this
          exact Nat.lt_of_le_of_lt (Nat.zero_le _) (hr.keys k hk).1
        have := decls_ends 0 (d :: ds') (initial_quiet hr hpos (quiet_lookup hn hq)) (quiet_lookup hn hq)
        simp only [AEnds] at this
        intro e
        rw [show Ana.decls (0 + 3) (d :: ds') (Ana.initial (d :: ds') next) = .timeout from e] at this
        exact this
    | err e => simp
    | throws => simp
    | ub => simp
  exact ⟨_, h3, fun n hn => program_within hn h3⟩

/-- **C58, the bound.** If analysis ends at all, its result is the same for all larger bounds. -/
theorem C58_bound {n m : Nat} (h : n ≤ m) {ds : List ADecl} {next : Nat}
    (he : Ana.program n ds next ≠ .timeout) : Ana.program m ds next = Ana.program n ds next :=
  program_within h he

open Programs

/-- `const c = 3 + 4;` `function f(x: Uint(c)) -> Uint(c) { return h(g(x)); }`
`function h(x: Uint(c)) -> Uint(c) { return f(x) + c; }`
`function g(x: Uint(N)) -> Uint(N) { return x; }` -/
def mutual_ : List ADecl :=
  [const_ 1 "c" none (binary 2 .binary_plus (lit 3 "3") (lit 4 "4")),
    .function (fn 5 "f" [param 6 "x" (uint 7 (name 8 "c"))] (uint 9 (name 10 "c")) 11
      [return_ 12 (call 13 "h" [call 14 "g" [name 15 "x"]])]),
    .function (fn 16 "h" [param 17 "x" (uint 18 (name 19 "c"))] (uint 20 (name 21 "c")) 22
      [return_ 23 (binary 24 .binary_plus (call 25 "f" [name 26 "x"]) (name 27 "c"))]),
    .function (fn 28 "g" [param 29 "x" (uint 30 (name 31 "N"))] (uint 32 (name 33 "N")) 34
      [return_ 35 (name 36 "x")])]

/-- The hypotheses are met by a program in which two functions call each other, one of them an instance of
a generic function; it is accepted. -/
theorem C58_sample : RawProgram mutual_ 50 ∧ (∀ d ∈ mutual_, QuietD d) ∧
    ∀ n, 3 ≤ n → verdict (Ana.program n mutual_ 50) = .accepted := by
  have h1 : RawProgram mutual_ 50 := by
    refine ⟨?_, by decide, by decide⟩
    simp only [mutual_, List.forall_mem_cons, List.not_mem_nil, false_imp_iff, implies_true, and_true, RawD]
    refine ⟨by simp [const_, binary, RawE, lit], ?_, ?_, ?_⟩ <;> constructor <;>
    simp [fn, param, uint, lit, name, call, return_, binary, RawT, RawE, RawEs, RawS, RawSs, CallFree, CallFreeT]
  have h2 : ∀ d ∈ mutual_, QuietD d := by
    simp only [mutual_, List.forall_mem_cons, List.not_mem_nil, false_imp_iff, implies_true, and_true, QuietD]
    refine ⟨by simp [const_, binary, QuietD, CallFree, lit], ?_, ?_, ?_⟩ <;> constructor <;>
    simp [fn, param, uint, lit, name, call, return_, binary, QuietE, QuietEs, QuietS, QuietSs, CallFree, CallFreeT]
  refine ⟨h1, h2, fun n hn => ?_⟩
  obtain ⟨r, -, hr⟩ := C58_ends_partial h1 h2
  rw [hr n hn, ← hr 100 (by decide)]
  decide +kernel

end Bms
