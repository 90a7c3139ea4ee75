import Verif.Lemmas.AnalyzeDone

/-!
# Code of functions that are analyzed for constant expressions
-/

namespace Bms

open Spec Gen

section

variable {Γ : Ctx} {env env' : FnEnv}

/-- Code depends only on the functions in the context. -/
theorem exprC_congr (h : ∀ k x, Γ.fns k = some x → env k = env' k) (e : Expr) :
    Typed Γ e → exprC env e = exprC env' e := by
  induction e using Expr.ind with
  | literal l cv => intro _; simp only [exprC]
  | id cv ref => intro _; simp only [exprC]
  | conversion cv e ct ih =>
    intro ht
    cases ht with
    | conversion he => simp only [exprC, ih he]
  | ite cv l c r ihl ihc ihr =>
    intro ht
    cases ht with
    | ite hl hc hr => simp only [exprC, ihl hl, ihc hc, ihr hr]
  | binary cv op l r ihl ihr =>
    intro ht
    cases ht with
    | binary hl hr => simp only [exprC, ihl hl, ihr hr]
  | pre cv op e ih =>
    intro ht
    cases ht with
    | pre he => simp only [exprC, ih he]
  | call cv st ref args ih =>
    intro ht
    have hta : ∀ a ∈ args, Typed Γ a := by cases ht <;> assumption
    have hp : ∀ i, paramType env ref i = paramType env' ref i := by
      intro i
      cases ht with
      | call hk => simp only [paramType, h _ _ hk]
      | builtin => simp only [paramType]
    have hci : callInstrC env ref = callInstrC env' ref := by
      cases ht with
      | call hk => simp only [callInstrC, h _ _ hk]
      | builtin => simp only [callInstrC]
    have ha : ∀ i, argsC env ref i args = argsC env' ref i args := by
      clear ht
      induction args with
      | nil => intro i; simp only [argsC]
      | cons a as iha =>
        intro i
        simp only [argsC, ih a List.mem_cons_self (hta a List.mem_cons_self), convertArgC, hp,
          iha (fun x hx => ih x (List.mem_cons_of_mem _ hx)) (fun x hx => hta x (List.mem_cons_of_mem _ hx))]
    simp only [exprC, ha, hci]

theorem argsC_congr (h : ∀ k x, Γ.fns k = some x → env k = env' k) {cv : Option Value} {st : Bool}
    {ref : Option Lookup} {args : List Expr} (ht : Typed Γ (.call cv st ref args)) :
    ∀ i, argsC env ref i args = argsC env' ref i args := by
  have hta : ∀ a ∈ args, Typed Γ a := by cases ht <;> assumption
  have hp : ∀ i, paramType env ref i = paramType env' ref i := by
    intro i
    cases ht with
    | call hk => simp only [paramType, h _ _ hk]
    | builtin => simp only [paramType]
  clear ht
  induction args with
  | nil => intro i; simp only [argsC]
  | cons a as iha =>
    intro i
    simp only [argsC, exprC_congr h a (hta a List.mem_cons_self), convertArgC, hp,
      iha (fun x hx => hta x (List.mem_cons_of_mem _ hx))]

theorem stmtC_congr (h : ∀ k x, Γ.fns k = some x → env k = env' k) {ret : CType} {o : Option CType}
    (st : Stmt) : ∀ {loop : Bool}, TypedS Γ ret loop st → stmtC env o st = stmtC env' o st := by
  have hexpr := fun {e : Expr} => exprC_congr h e
  induction st using Stmt.ind with
  | const_ k d cv e => intro loop ht; simp only [stmtC]
  | let_ k d cv init =>
    intro loop ht
    cases ht with
    | letNone hc hv => simp only [stmtC]
    | letInit hc hv he _ _ => simp only [stmtC, hexpr he]
  | staticAssert cv e => intro loop ht; simp only [stmtC]
  | ifThen cd t ih =>
    intro loop ht
    cases ht with
    | ifThen hc _ _ ht => simp only [stmtC, hexpr hc, ih ht]
  | ifElse cd t e iht ihe =>
    intro loop ht
    cases ht with
    | ifElse hc _ _ ht he => simp only [stmtC, hexpr hc, iht ht, ihe he]
  | while_ cd b ih =>
    intro loop ht
    cases ht with
    | while_ hc _ _ hb => simp only [stmtC, hexpr hc, ih hb]
  | control ct cv e =>
    intro loop ht
    cases ht with
    | break_ => simp only [stmtC]
    | continue_ => simp only [stmtC]
    | returnVoid hr => simp only [stmtC, returnC]
    | return_ he => simp only [stmtC, returnC, hexpr he]
  | assign cv t e =>
    intro loop ht
    cases ht with
    | assign hc hv he => simp only [stmtC, hexpr he]
  | block ss ih =>
    intro loop ht
    cases ht with
    | block ht =>
      simp only [stmtC]
      induction ss with
      | nil => simp only [stmtsC]
      | cons s ss ihs =>
        cases ht with
        | cons h1 h2 =>
          simp only [stmtsC, ih s List.mem_cons_self h1,
            ihs (fun s hs {_} => ih s (List.mem_cons_of_mem _ hs)) h2]
  | call e =>
    intro loop ht
    cases ht with
    | call ht =>
      have := hexpr ht
      simp only [exprC] at this
      simp only [stmtC, exprC]
      cases ht with
      | call hk hta =>
        have ha : ∀ i, argsC env _ i _ = argsC env' _ i _ := fun i => argsC_congr h (.call hk hta ‹_›) i
        simp only [ha, callInstrC, h _ _ hk]
      | builtin hta hcv hev =>
        have ha : ∀ i, argsC env _ i _ = argsC env' _ i _ := fun i => argsC_congr h (.builtin hta hcv hev) i
        simp only [ha, callInstrC]

end

theorem progOf_fn {s : ASt} {k : Key} {f : AFn} (hf : s.fns k = some f) (hg : f.generic = false)
    (hl : f.level = .forConst) : (progOf s).fns k = some (fnDef f) := by
  simp [progOf, hf, hg, hl]

/-- Code generation sees the same of compiled functions in the state and in every program that contains
them. -/
theorem env_eq {N : Nat} {s : ASt} (h : Inv N s) {P : Prog}
    (hP : ∀ k d, (progOf s).fns k = some d → P.fns k = some d) :
    ∀ k x, (ctxOf .forConst s).fns k = some x → s.env k = P.env (addrOf s) k := by
  intro k x hx
  obtain ⟨f, hf, hg, hl, -⟩ := ctx_fn hx
  have hl : f.level = .forConst := by
    rw [Level.eq_forConst]
    exact hl
  have p := (h.fn k f hf).plain hg
  have hsig := p.sigParams (by rw [hl]; decide)
  obtain ⟨-, h1, h2⟩ := p.typedConst hl
  have hd := hP k _ (progOf_fn hf hg hl)
  simp only [ASt.env, hf, Option.map_some, Prog.env, hd, AFn.info, fnDef, addrOf, hg, hl, and_self,
    if_true, Option.bind_some, h1, h2, Option.some.injEq, FnInfo.mk.injEq, and_true, List.map_map]
  refine List.map_congr_left fun q hq => ?_
  obtain ⟨t, ht⟩ := hsig q hq
  simp only [Function.comp_def, ht.1, ht.typeOf]

theorem stateEnv_ok {N : Nat} {s : ASt} (h : Inv N s) : EnvOk (ctxOf .forConst s) s.env := by
  intro k ts t hk
  obtain ⟨f, hf, hg, hl, hs⟩ := ctx_fn hk
  have p := (h.fn k f hf).plain hg
  have hsig := p.sigParams (by rw [Level.ne_unanalyzed]; exact Nat.le_trans (by decide) hl)
  refine ⟨f.info, by simp [ASt.env, hf], ?_⟩
  cases hs
  simp only [AFn.info, List.map_map]
  refine List.map_congr_left fun q hq => ?_
  obtain ⟨t, ht⟩ := hsig q hq
  simp only [Function.comp_def, ht.1, ht.typeOf, Option.map_some, Value.unknownOf]

theorem node_eq {f : AFn} {t : CType} (h : SigT f.ret t) : f.node = (fnDef f).node := by
  simp only [AFn.node, FnDef.node, fnDef, h.1, h.2.1, h.typeOf, List.map_map, Option.isSome_some]
  rfl

theorem updateFn_ok {s s' : ASt} {k : Key} {g : AFn → AFn} {x : Unit} :
    Ana.updateFn k g s = .ok x s' ↔ ∃ f, s.fns k = some f ∧ s' = s.setFn k (g f) := by
  simp only [Ana.updateFn, AM.bind_ok, AM.read_ok, AM.value_ok, AM.modify_ok]
  constructor
  · rintro ⟨_, _, ⟨rfl, rfl⟩, f, _, ⟨hf, rfl⟩, h⟩
    exact ⟨f, hf, h.symm⟩
  · rintro ⟨f, hf, rfl⟩
    exact ⟨_, _, ⟨rfl, rfl⟩, f, _, ⟨hf, rfl⟩, rfl⟩

theorem compile_ok {N : Nat} {s s' : ASt} (h : Inv N s) {k : Key} {f : AFn} (s0 : ASt)
    (hs : s0.fns = (s.setFn k f).fns) (hcode : s0.code = s.code)
    (hl : ∀ g, s.fns k = some g → g.generic = false → g.level ≠ .forConst) {t : CType} (hr : SigT f.ret t)
    (ht : TypedSs (ctxOf .forConst s) t false (eraseStmts f.body))
    (hpk : ∀ p ∈ f.params, p.k ≠ sentinelKey)
    (hx : Ana.compile k s0 = .ok () s') :
    ∃ c, s' = { s0.setFn k { f with address := some s.code.length } with code := s.code ++ c } ∧
      OperandsOk c ∧
      ∀ P : Prog, (∀ k d, (progOf s).fns k = some d → P.fns k = some d) → P.fns k = some (fnDef f) →
        Loaded P (fun j => if j = k then some s.code.length else addrOf s j) (s.code ++ c) := by
  have hk0 : s0.fns k = some f := by rw [hs]; simp [ASt.setFn]
  simp only [Ana.compile, AM.bind_ok, AM.read_ok, AM.value_ok] at hx
  obtain ⟨_, _, ⟨rfl, rfl⟩, f', _, ⟨hf', rfl⟩, ⟨code, a⟩, s1, h1, hx⟩ := hx
  rw [hk0] at hf'
  cases hf'
  simp only [AM.lift_ok] at h1
  obtain ⟨h1, rfl⟩ := h1
  simp only [AM.bind_ok, AM.modify_ok, updateFn_ok] at hx
  obtain ⟨_, s1, rfl, f', hf', rfl⟩ := hx
  simp only [hk0, Option.some.injEq] at hf'
  subst hf'
  have hnot : ∀ x, (ctxOf .forConst s).fns k ≠ some x := by
    intro x hx
    obtain ⟨g, hg, hgg, hgl, -⟩ := ctx_fn hx
    exact hl g hg hgg (by rw [Level.eq_forConst]; exact hgl)
  have henv : ∀ j x, (ctxOf .forConst s).fns j = some x → s0.env j = s.env j := by
    intro j x hj
    have : j ≠ k := by rintro rfl; exact hnot x hj
    simp only [ASt.env, hs, ASt.setFn, if_neg this]
  obtain ⟨c, hc, rfl, rfl⟩ := loadFunction_ok h1
  rw [hcode] at *
  have hcongr : ∀ env', (∀ j x, (ctxOf .forConst s).fns j = some x → s0.env j = env' j) →
      functionC env' f.node = .ok c := by
    intro env' he
    rw [← hc]
    have := stmtC_congr he (o := f.node.ret) (.block (eraseStmts f.body)) (.block ht)
    simp only [stmtC] at this
    simp only [functionC, AFn.node] at this ⊢
    rw [this]
  refine ⟨c, ?_, ?_, ?_⟩
  · simp only [ASt.setFn]
  · have hc' := hcongr s.env henv
    rw [node_eq hr] at hc'
    obtain ⟨b, e, hb, rfl, he⟩ := functionC_ok hc'
    refine .append ?_ (.append ?_ ?_)
    · intro i hi
      simp only [List.mem_map, List.mem_reverse, fnDef] at hi
      obtain ⟨_, ⟨_, ⟨q, hq, rfl⟩, rfl⟩, rfl⟩ := hi
      exact hpk q hq
    · refine stmtC_operands (h.ctx (by decide)) (stateEnv_ok h) (noMeaning_agrees _) (noFrame_ok _) ?_ _
        (.block (loop := false) ?_) b hb
      · simp only [fnDef, hr.typeOf]; exact hr.2.2
      · simp only [fnDef, hr.typeOf]; exact ht
    · rcases he with ⟨_, rfl⟩ | ⟨_, _, rfl⟩ | ⟨_, rfl⟩
      · exact .nil
      · exact .nil
      · exact .cons ⟨trivial, rfl⟩ (.cons trivial .nil)
  · intro P hP hPk
    refine .add (h.loaded P hP) hPk ?_ ?_
    · simp only [addrOf]
      cases hg : s.fns k with
      | none => rfl
      | some g =>
        simp only [Option.bind_some]
        rw [if_neg]
        rintro ⟨h2, h3⟩
        exact hl g hg h2 h3
    · have hc' := hcongr (P.env (addrOf s)) fun j x hj => (henv j x hj).trans (env_eq h hP j x hj)
      rw [node_eq hr] at hc'
      unfold loadFunction
      obtain ⟨j, hj, hjc⟩ := Gen.function_comp (P.env (addrOf s)) (fnDef f).node s.code
      rw [hj, hc']
      have := hjc c hc'
      subst this
      rfl

end Bms
