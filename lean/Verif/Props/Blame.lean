import Verif.Lemmas.BlameFn
import Verif.Lemmas.BlameNames
import Verif.Props.AnalysisCases
import Verif.Props.AnalysisEnds
import Verif.Props.Build

/-!
# C85: what analysis rejects breaks the rule that is named, at the node that is named
-/

namespace Bms

open Spec

/-- Nothing is looked up yet in the types of parameters. -/
def Spec.FreshParams (ds : List ADecl) : Prop := ∀ f, .function f ∈ ds → ∀ p ∈ f.params, refsT p.type = []

/-- **C85** (partial: nothing is said about the types of calls in constant expressions and about the values
that are computed; functions with requires-clauses that call themselves are rejected for the wrong reason,
see `C85_violation`). If analysis rejects a program, then either names are not as they should be (C35 says
how), or the program after name lookup breaks the rule with the code of the error, at the node that the
error names; for nodes of instances, at the node of the generic function that they are copied from. -/
theorem C85_blame_partial {n : Nat} {ds : List ADecl} {next : Nat} {e : AErr} (h : RawProgram ds next) (hr : FreshParams ds)
    (hx : Ana.program n ds next = .err e) :
    Names.program ds = .err e ∨ ∃ ds', Names.program ds = .ok ds' ∧ Breaks ds' e.code (e.fail % next) := by
  unfold Ana.program at hx
  cases hn : Names.program ds with
  | err e' =>
    rw [hn] at hx
    cases hx
    exact .inl rfl
  | throws => rw [hn] at hx; cases hx
  | ub => rw [hn] at hx; cases hx
  | ok ds' =>
    rw [hn] at hx
    refine .inr ⟨ds', rfl, ?_⟩
    have hg : BGiven ds' next := ⟨rawProgram_strip h (lookup_strip hn),
      Names.program_low (fun d hd k hk => (h.keys k (List.mem_flatMap.2 ⟨d, hd, hk⟩)).1) hr hn⟩
    have := declsA_bl (n := n) hg ds' (fun _ h => h) (initial_bl hg)
    unfold Bl at this
    simp only at hx
    rw [hx] at this
    exact this.elim (fun h => h.elim) id

/-- **C85**, the other way round (partial in the same ways): a program that breaks no rule is not rejected. -/
theorem C85_clean_partial {n : Nat} {ds ds' : List ADecl} {next : Nat} (h : RawProgram ds next) (hr : FreshParams ds)
    (hp : Names.program ds = .ok ds') (hb : ∀ code k, ¬ Breaks ds' code k) (e : AErr) : Ana.program n ds next ≠ .err e := by
  intro hx
  rcases C85_blame_partial h hr hx with h | ⟨ds1, h1, h2⟩
  · rw [hp] at h; cases h
  · rw [hp] at h1
    cases h1
    exact hb _ _ h2

/-! ## Texts -/

mutual

theorem refsE_fresh : (e : AExpr) → ∀ t, ExprIs t e → refsE e = []
  | .literal .., t, h => by simp [refsE]
  | .id .., t, h => by cases h; simp [refsE]
  | .conversion _ _ e ty, t, h => by
    cases h with | conversion h1 h2 =>
    simp [refsE, refsE_fresh e _ h1, refsT_fresh ty _ h2]
  | .ite _ _ l b r, t, h => by
    cases h with | ite h1 h2 h3 =>
    simp [refsE, refsE_fresh l _ h1, refsE_fresh b _ h2, refsE_fresh r _ h3]
  | .binary _ _ _ l r, t, h => by
    cases h with | binary _ h1 h2 =>
    simp [refsE, refsE_fresh l _ h1, refsE_fresh r _ h2]
  | .prefix _ _ _ e, t, h => by
    cases h with | pre _ h1 =>
    simp [refsE, refsE_fresh e _ h1]
  | .call _ _ _ _ _ args, t, h => by
    cases h with | call h1 =>
    simp [refsE, refsEs_fresh args _ h1]

theorem refsT_fresh : (ty : AType) → ∀ t, TypeIs t ty → refsT ty = []
  | .base .., t, h => by simp [refsT]
  | .uint _ _ _ w, t, h => by
    cases h with | uint h1 =>
    simp [refsT, refsE_fresh w _ h1]

theorem refsEs_fresh : (es : List AExpr) → ∀ ts, ExprsIs ts es → refsEs es = []
  | [], _, _ => by simp [refsEs]
  | e :: es, ts, h => by
    cases h with | cons h1 h2 =>
    simp [refsEs, refsE_fresh e _ h1, refsEs_fresh es _ h2]

end

theorem freshParams {ps : List AParam} : ∀ ts, ParamsIs ts ps → ∀ p ∈ ps, refsT p.type = [] := by
  induction ps with
  | nil => intro _ _ p hp; cases hp
  | cons q ps ih =>
    intro ts h p hp
    cases h with | cons h1 h2 =>
    rcases List.mem_cons.1 hp with rfl | hp
    · exact refsT_fresh _ _ h1
    · exact ih _ h2 p hp

theorem freshDecls {ds : List ADecl} : ∀ ts, DeclsIs ts ds → FreshParams ds := by
  induction ds with
  | nil => intro _ _ f hf; cases hf
  | cons d ds ih =>
    intro ts h f hf
    cases h with | cons h1 h2 =>
    rcases List.mem_cons.1 hf with rfl | hf
    · cases h1 with | function h1 =>
      cases h1 with | mk hps _ _ _ =>
      cases hps with
      | none => intro p hp; cases hp
      | some hps => exact freshParams _ hps
    · exact ih _ h2 f hf

/-- **C85 for texts** (partial in the same ways): if the program of a text is
rejected, the rule that is named is broken. -/
theorem C85_text_partial {n : Nat} {src : List Char} {ds : List ADecl} {e : AErr}
    (hx : compile n src = .analyzed ds (.err e)) (hp : PlainSignatures ds) :
    (∃ ts t, tokenize src = some (ts, .ok ()) ∧ Derives true .program (lexemes src ts) [some t] ∧ ProgramIs t ds) ∧
    (Names.program ds = .err e ∨ ∃ ds' next, Names.program ds = .ok ds' ∧ RawProgram ds' next ∧ Breaks ds' e.code (e.fail % next)) := by
  obtain ⟨ts, t, next, h1, -, h2, h3, h4, h6⟩ := C60_analyzed hx
  · refine ⟨⟨ts, t, h1, h2, h3⟩, ?_⟩
    have hf : FreshParams ds := by
      cases h3 with | mk h => exact freshDecls _ h
    rcases C85_blame_partial (h4 hp) hf h6.symm with h | ⟨ds', a1, a2⟩
    · exact .inl h
    · exact .inr ⟨ds', next, a1, rawProgram_strip (h4 hp) (lookup_strip a1), a2⟩

/-! ## Cases -/

open Programs

/-- `function f(x: Int) -> Int { return x; }`, with names looked up. -/
def fine_ : List ADecl :=
  [.function (fn 1 "f" [param 2 "x" (int 3)] (int 4) 5 [return_ 6 (.id 7 none ['x'] (some (.param 2)) false)])]

/-- Not every program breaks rules: this one breaks none. -/
theorem C85_fine (code : ACode) (k : Key) : ¬ Breaks fine_ code k := by
  have hV : ∀ j t, VarType fine_ j t → t = .int := by
    intro j t h
    refine h (fun _ t => t = .int) ⟨?_, ?_, ?_, ?_⟩
    · intro d hd b hb
      simp only [fine_, List.mem_singleton] at hd
      subst hd
      simp [boundD, fn, return_, boundSs, boundS] at hb
    · intro d hd b hb
      simp only [fine_, List.mem_singleton] at hd
      subst hd
      simp [boundD, fn, return_, boundSs, boundS] at hb
    · intro f hf p hp t ht
      simp only [fine_, List.mem_singleton, ADecl.function.injEq] at hf
      subst hf
      simp only [fn, List.mem_singleton] at hp
      subst hp
      simpa [param, int, Stands, BaseType.type] using ht
    · intro _ _ _ _ _ _
      rfl
  rintro ⟨d, hd, hb⟩
  simp only [fine_, List.mem_singleton] at hd
  subst hd
  cases hb with | function hb =>
  cases hb with
  | param hp hb =>
    simp only [fn, List.mem_singleton] at hp
    subst hp
    cases hb
  | ret hb => cases hb
  | requires_ he => simp [fn] at he
  | noBool he => simp [fn] at he
  | fails he => simp [fn] at he
  | recursion _ h => simp [fn, refsSs, return_, refsS, refsO, refsE] at h
  | body hs hb =>
    simp only [fn, List.mem_singleton] at hs
    subst hs
    cases hb with
    | result h1 h2 h3 =>
      rcases h1 with ⟨h, -⟩ | ⟨j, hj, h1⟩
      · cases h
      · have := hV _ _ h1
        subst this
        simp only [fn, int, Stands] at h2
        subst h2
        revert h3
        decide
    | resultInner hb => cases hb

/-- The hypotheses of `C85_clean_partial` are met. -/
theorem C85_clean_sample : ∃ ds, RawProgram ds 50 ∧ FreshParams ds ∧ Names.program ds = .ok fine_ ∧
    ∀ e, Ana.program 100 ds 50 ≠ .err e := by
  let ds := [ADecl.function (fn 1 "f" [param 2 "x" (int 3)] (int 4) 5 [return_ 6 (name 7 "x")])]
  have h1 : RawProgram ds 50 := by
    refine ⟨?_, by decide, by decide⟩
    simp only [ds, List.forall_mem_cons, List.not_mem_nil, false_imp_iff, implies_true, and_true, RawD]
    constructor <;> simp [fn, param, int, name, return_, RawT, RawE, RawS, RawSs, CallFreeT]
  have h2 : FreshParams ds := by
    intro f hf p hp
    simp only [ds, List.mem_singleton, ADecl.function.injEq] at hf
    subst hf
    simp only [fn, List.mem_singleton] at hp
    subst hp
    rfl
  have h3 : Names.program ds = .ok fine_ := by rfl
  exact ⟨ds, h1, h2, h3, fun e => C85_clean_partial h1 h2 h3 C85_fine e⟩

/-- `function h(x: Uint(8)) -> Uint(8) { return g(x); } function g(x: Uint(N)) -> Uint(N) { return true; }`:
the hypotheses are met by a program that is rejected because of an instance of a generic function. The
error names a node of the instance, with the key 58; the rule is broken at the node 8 it is a copy of,
`return true;`. -/
theorem C85_sample : RawProgram [user, wrong] 50 ∧ FreshParams [user, wrong] ∧
    Ana.program 100 [user, wrong] 50 = .err ⟨.check .incompatible_types, 58⟩ ∧
    ∃ ds', Names.program [user, wrong] = .ok ds' ∧ Breaks ds' (.check .incompatible_types) 8 := by
  have h1 : RawProgram [user, wrong] 50 := by
    refine ⟨?_, by decide, by decide⟩
    simp only [List.forall_mem_cons, List.not_mem_nil, false_imp_iff, implies_true, and_true, RawD, user, wrong]
    refine ⟨?_, ?_⟩ <;> constructor <;>
      simp [fn, param, uint, lit, true_, name, call, return_, RawT, RawE, RawEs, RawS, RawSs, CallFree, CallFreeT]
  have h2 : FreshParams [user, wrong] := by
    intro f hf p hp
    simp only [user, wrong, List.mem_cons, ADecl.function.injEq, List.not_mem_nil, or_false] at hf
    rcases hf with rfl | rfl <;> simp only [fn, List.mem_singleton] at hp <;> subst hp <;> rfl
  have h3 : Ana.program 100 [user, wrong] 50 = .err ⟨.check .incompatible_types, 58⟩ := by
    have := C54_instance_violation.2
    cases hr : Ana.program 100 [user, wrong] 50 with
    | err e =>
      rw [hr] at this
      simp only [Programs.verdict, Verdict.rejected.injEq] at this
      obtain ⟨code, k⟩ := e
      simp only at this
      rw [this.1, this.2]
    | _ => rw [hr] at this; simp [Programs.verdict] at this
  refine ⟨h1, h2, h3, ?_⟩
  rcases C85_blame_partial h1 h2 h3 with h | h
  · have : (match Names.program [user, wrong] with | .ok _ => true | _ => false) = true := by decide +kernel
    rw [h] at this
    cases this
  · exact h

/-- **C85 is violated** by functions with a requires-clause that call themselves:
`function f(x: Int) -> Int requires true { return f(x); }` is rejected because the result of `f(x)` could
not be returned, although both are `Int`. -/
theorem C85_violation : Ana.program 100 intRecursion 50 = .err ⟨.check .incompatible_types, 6⟩ ∧
    ∃ f, intRecursion = [.function f] ∧ f.name = ['f'] ∧ f.ret = .base 4 none .int ∧
      f.body = [.control 6 none .return_ (some (.call 7 none false ['f'] none [.id 8 none ['x'] none false]))] := by
  have := C54_recursion_violation.2
  refine ⟨?_, _, rfl, rfl, rfl, rfl⟩
  cases hr : Ana.program 100 intRecursion 50 with
  | err e =>
    rw [hr] at this
    simp only [Programs.verdict, Verdict.rejected.injEq] at this
    obtain ⟨code, k⟩ := e
    simp only at this
    rw [this.1, this.2]
  | _ => rw [hr] at this; simp [Programs.verdict] at this

end Bms
