import Verif.Lemmas.AnalyzeStmt

/-!
# Analysis of nodes that have been analyzed before

A function that has been analyzed for its own sake is analyzed once more if a constant expression calls
it. No node changes; only the called functions are analyzed and compiled.
-/

namespace Bms

open Spec

theorem Folds.unique {o : Outcome EvalErr Value} {t : CType} {v w : Value} (h : Folds o t v)
    (h' : Folds o t w) : v = w := by
  rcases h with h | ⟨⟨e, h⟩, hv⟩ <;> rcases h' with h' | ⟨⟨e', h'⟩, hw⟩
  · rw [h] at h'; cases h'; rfl
  · rw [h] at h'; cases h'
  · rw [h] at h'; cases h'
  · rw [hv, hw]

theorem eraseType_concrete {ε : Type} {ty : AType} {t u : CType} (h : ty.eraseType = some t)
    (hc : ty.concreteType (ε := ε) = .ok (some u)) : u = t := by
  unfold AType.eraseType at h
  cases ty with
  | base k cv b => simp [AType.concreteType] at hc h; rw [← hc, ← h]
  | uint k cv c w =>
    obtain ⟨x, rfl, rfl⟩ := concreteType_ok hc
    split at h
    · rename_i o ho
      subst h
      obtain ⟨y, hy, rfl⟩ := concreteType_ok ho
      cases hy
      rfl
    · cases h

theorem type_done {n : Nat} {af : Key → Level → AM Unit} {ty ty' : AType} {s s' : ASt}
    (h : ty.cv.isSome) (hx : Ana.type n af ty s = .ok ty' s') : ty' = ty ∧ s' = s := by
  obtain ⟨v, hv⟩ := Option.isSome_iff_exists.1 h
  cases ty with
  | base k cv b =>
    simp only [AType.cv] at hv
    subst hv
    simp only [Ana.type, AM.pure_ok] at hx
    exact ⟨hx.1.symm, hx.2.symm⟩
  | uint k cv c w =>
    simp only [AType.cv] at hv
    subst hv
    simp only [Ana.type, AM.pure_ok] at hx
    exact ⟨hx.1.symm, hx.2.symm⟩

/-- What the second analysis of an expression establishes. -/
structure EDone (N : Nat) (e : AExpr) (s : ASt) (e' : AExpr) (s' : ASt) : Prop where
  same : e' = e
  inv : Inv N s'
  ext : Ext [] s s'
  typed : Typed (ctxOf .forConst s') e.erase

/-- What the second analysis of arguments establishes. -/
structure EsDone (N : Nat) (es : List AExpr) (s : ASt) (es' : List AExpr) (s' : ASt) : Prop where
  same : es' = es
  inv : Inv N s'
  ext : Ext [] s s'
  typed : ∀ a ∈ es, Typed (ctxOf .forConst s') a.erase

theorem callFunction_plain {n : Nat} {af : Key → Level → AM Unit} {s s' : ASt}
    {k j0 j : Key} {args : List AExpr} {level : Level} {ctx : ECtx} {w : Value} {f : AFn}
    (hf : s.fns j0 = some f) (hg : f.generic = false)
    (hc : Ana.callFunction n af k j0 args level ctx s = .ok (j, w) s') : j = f.k := by
  simp only [Ana.callFunction, AM.bind_ok, AM.read_ok] at hc
  obtain ⟨_, _, ⟨rfl, rfl⟩, hc⟩ := hc
  simp only [hf, Ana.callee, hg, Bool.false_eq_true, if_false, AM.ite_fail_ok, AM.bind_ok, AM.read_ok, AM.value_ok, AM.assert_ok,
    AM.deref_ok, AM.pure_ok] at hc
  obtain ⟨hlen, j1, s1, ⟨rfl, rfl⟩, _, _, ⟨rfl, rfl⟩, f1, _, ⟨hf1, rfl⟩, _, _, ⟨hgen1, rfl⟩, hc⟩ := hc
  generalize hin : (if ctx = .constant ∨ level = .forConst then Level.forConst else .shallow)
    = inner at hc
  obtain ⟨hstk, _, s2, haf', _, _, ⟨rfl, rfl⟩, f2, _, ⟨hf2, rfl⟩, _, _, ⟨hlev, rfl⟩, r, _, ⟨hr, rfl⟩,
      hc⟩ := hc
  by_cases hctx : ctx = .constant
  · simp only [hctx, if_true, AM.bind_ok, AM.value_ok, AM.assert_ok] at hc
    obtain ⟨a, _, ⟨ha, rfl⟩, _, _, ⟨hlt, rfl⟩, cs, s3, hpass, hc⟩ := hc
    cases hcc : constantCall { Vm.initial with instructions := s2.code } a cs n with
    | none => simp [hcc, AM.timeout_ok] at hc
    | some o =>
      cases o with
      | ok v =>
        simp only [hcc, AM.pure_ok, Prod.mk.injEq] at hc
        exact hc.1.1.symm
      | err e => simp [hcc, AM.fail_ok] at hc
      | throws => simp [hcc, AM.throws_ok] at hc
      | ub => simp [hcc, AM.ub_ok] at hc
  · simp only [hctx, if_false, AM.bind_ok, AM.pure_ok, Prod.mk.injEq] at hc
    obtain ⟨_, _, _, ⟨rfl, _⟩, _⟩ := hc
    rfl

theorem ctx_fn {l : Level} {s : ASt} {k : Key} {x : List CType × CType} (h : (ctxOf l s).fns k = some x) :
    ∃ f, s.fns k = some f ∧ f.generic = false ∧ l.rank ≤ f.level.rank ∧ signature f = x := by
  simp only [ctxOf] at h
  cases hf : s.fns k with
  | none => simp [hf] at h
  | some f =>
    simp only [hf, Option.bind_some] at h
    split at h
    · rename_i hc
      exact ⟨f, rfl, hc.1, hc.2, Option.some.inj h⟩
    · cases h

theorem Spec.Typed.someValue {Γ : Ctx} {e : Expr} (h : Typed Γ e) : ∃ v, e.cv = some v := by
  cases h <;> exact ⟨_, rfl⟩

section

variable {N n : Nat} {af : Key → Level → AM Unit} (haf : AfOk N af)

include haf

mutual

/-- Expressions that have been analyzed before. -/
theorem expr_done_ok : (e : AExpr) → {s s' : ASt} → {e' : AExpr} →
    Inv N s → DoneE e → Typed (ctxOf .shallow s) e.erase →
    Ana.expr n af e .forConst .normal s = .ok e' s' → EDone N e s e' s'
  | .literal k cv lit, s, s', e', h, hd, ht, hx => by
    simp only [AExpr.erase] at ht
    cases ht with
    | literal hl =>
      simp only [Ana.expr, Ana.literal, AM.bind_ok, AM.assert_ok, AM.pure_ok] at hx
      obtain ⟨_, _, ⟨_, rfl⟩, rfl, rfl⟩ := hx
      refine ⟨rfl, h, .refl _ _, ?_⟩
      simp only [AExpr.erase]
      exact .literal hl
  | .id k cv name ref g, s, s', e', h, hd, ht, hx => by
    simp only [AExpr.erase] at ht
    have hcv : ∃ v, cv = some v := by cases ht <;> exact ⟨_, rfl⟩
    obtain ⟨v, rfl⟩ := hcv
    simp only [Ana.expr, AM.pure_ok] at hx
    obtain ⟨rfl, rfl⟩ := hx
    refine ⟨rfl, h, .refl _ _, ?_⟩
    simp only [AExpr.erase]
    cases ht with
    | var h1 h2 => exact .var h1 h2
    | param h1 => exact .param h1
    | const_ h1 => exact .const_ h1
    | width h1 => exact .width h1
  | .conversion k cv e ty, s, s', e', h, hd, ht, hx => by
    simp only [DoneE] at hd
    simp only [AExpr.erase] at ht
    generalize hety : ty.eraseType = o at ht
    cases ht with
    | @conversion _ v t w ht hcv hwf hconv hfold =>
      simp only [Ana.expr, AM.bind_ok, AM.value_ok, AM.get_ok, AM.ite_fail_ok, AM.pure_ok] at hx
      obtain ⟨e1, s1, h1, ty1, s2, h2, v1, _, ⟨hv, rfl⟩, o, _, ⟨ho, rfl⟩, t1, _, ⟨rfl, rfl⟩, hc, w1, s3, hf,
        rfl, rfl⟩ := hx
      obtain ⟨hf', rfl⟩ := AM.foldResult_ok hf
      have a := expr_done_ok e h hd.1 ht h1
      obtain ⟨rfl, rfl⟩ := type_done hd.2 h2
      have := eraseType_concrete hety ho
      subst this
      have hsame := a.same
      subst hsame
      rw [AExpr.erase_cv, hv] at hcv
      cases hcv
      have := Folds.unique hf' hfold
      subst this
      refine ⟨rfl, a.inv, a.ext, ?_⟩
      simp only [AExpr.erase, hety]
      exact .conversion a.typed (by rw [AExpr.erase_cv, hv]) hwf hconv hfold
  | .ite k cv l c r, s, s', e', h, hd, ht, hx => by
    simp only [DoneE] at hd
    simp only [AExpr.erase] at ht
    cases ht with
    | @ite _ _ _ vl vc vr t w tl tc tr hl hc hr hck hfold =>
      simp only [Ana.expr, AM.bind_ok, AM.deref_ok, AM.ite_fail_ok, AM.checked_ok, reduceCtorEq, if_false,
        AM.pure_ok] at hx
      obtain ⟨c1, s1, h1, vc1, _, ⟨hvc, rfl⟩, hb, _, _, ⟨rfl, rfl⟩, l1, s3, h2, r1, s4, h3, vl1, _, ⟨hvl, rfl⟩,
        vr1, _, ⟨hvr, rfl⟩, t1, _, ⟨ht1, rfl⟩, hx⟩ := hx
      simp only [reduceCtorEq, if_false] at h2 h3
      have a := expr_done_ok c h hd.2.1 tc h1
      have b := expr_done_ok l a.inv hd.1 (tl.mono (a.ext.ctx (by decide))) h2
      have d := expr_done_ok r b.inv hd.2.2 (tr.mono ((a.ext.trans b.ext).ctx (by decide))) h3
      have e1 := a.same; have e2 := b.same; have e3 := d.same
      subst e1 e2 e3
      rw [AExpr.erase_cv] at hl hc hr
      rw [hvl] at hl; rw [hvc] at hc; rw [hvr] at hr
      cases hl; cases hc; cases hr
      rw [ht1] at hck
      cases hck
      have hfin : ∃ w, Folds (evalIfV vl vc vr) t w ∧ e' = .ite k (some w) l1 c1 r1 ∧ s4 = s' := by
        cases hev : evalIfV vl vc vr with
        | ok w =>
          simp only [hev, AM.pure_ok] at hx
          exact ⟨w, .inl rfl, hx.1.symm, hx.2⟩
        | err e =>
          simp only [hev, AM.pure_ok] at hx
          exact ⟨_, .inr ⟨⟨e, rfl⟩, rfl⟩, hx.1.symm, hx.2⟩
        | throws => simp [hev, AM.throws_ok] at hx
        | ub => simp [hev, AM.ub_ok] at hx
      obtain ⟨w1, hf1, rfl, rfl⟩ := hfin
      have := Folds.unique hf1 hfold
      subst this
      refine ⟨rfl, d.inv, a.ext.trans (b.ext.trans d.ext), ?_⟩
      simp only [AExpr.erase]
      exact .ite (b.typed.mono (d.ext.ctx (by decide))) (a.typed.mono ((b.ext.trans d.ext).ctx (by decide)))
        d.typed (by rw [AExpr.erase_cv, hvl]) (by rw [AExpr.erase_cv, hvc]) (by rw [AExpr.erase_cv, hvr])
        ht1 hfold
  | .binary k cv op l r, s, s', e', h, hd, ht, hx => by
    simp only [DoneE] at hd
    simp only [AExpr.erase] at ht
    cases ht with
    | @binary _ _ _ vl vr t w tl tr hl hr hck hfold =>
      simp only [Ana.expr, AM.bind_ok, AM.assert_ok, AM.deref_ok, AM.checked_ok, AM.pure_ok] at hx
      obtain ⟨l1, s1, h1, _, _, ⟨_, rfl⟩, ctx', s2, hctx, r1, s3, h2, _, _, ⟨_, rfl⟩, vl1, _, ⟨hvl, rfl⟩, vr1, _,
        ⟨hvr, rfl⟩, t1, _, ⟨ht1, rfl⟩, w1, _, hf, rfl, rfl⟩ := hx
      obtain ⟨rfl, hctx'⟩ := rightContext_ok hctx
      have := hctx' rfl
      subst this
      obtain ⟨hf', rfl⟩ := AM.foldResult_ok hf
      have a := expr_done_ok l h hd.1 tl h1
      have b := expr_done_ok r a.inv hd.2 (tr.mono (a.ext.ctx (by decide))) h2
      have e1 := a.same; have e2 := b.same
      subst e1 e2
      rw [AExpr.erase_cv] at hl hr
      rw [hvl] at hl; rw [hvr] at hr
      cases hl; cases hr
      rw [ht1] at hck
      cases hck
      have := Folds.unique hf' hfold
      subst this
      refine ⟨rfl, b.inv, a.ext.trans b.ext, ?_⟩
      simp only [AExpr.erase]
      exact .binary (a.typed.mono (b.ext.ctx (by decide))) b.typed (by rw [AExpr.erase_cv, hvl])
        (by rw [AExpr.erase_cv, hvr]) ht1 hfold
  | .prefix k cv op e, s, s', e', h, hd, ht, hx => by
    simp only [DoneE] at hd
    simp only [AExpr.erase] at ht
    cases ht with
    | @pre _ _ v t w te he hck hfold =>
      simp only [Ana.expr, AM.bind_ok, AM.value_ok, AM.checked_ok, AM.pure_ok] at hx
      obtain ⟨e1, s1, h1, v1, _, ⟨hv, rfl⟩, t1, _, ⟨ht1, rfl⟩, w1, _, hf, rfl, rfl⟩ := hx
      obtain ⟨hf', rfl⟩ := AM.foldResult_ok hf
      have a := expr_done_ok e h hd te h1
      have hsame := a.same
      subst hsame
      rw [AExpr.erase_cv, hv] at he
      cases he
      rw [ht1] at hck
      cases hck
      have := Folds.unique hf' hfold
      subst this
      refine ⟨rfl, a.inv, a.ext, ?_⟩
      simp only [AExpr.erase]
      exact .pre a.typed (by rw [AExpr.erase_cv, hv]) ht1 hfold
  | .call k cv st name ref args, s, s', e', h, hd, ht, hx => by
    simp only [DoneE] at hd
    simp only [AExpr.erase] at ht
    generalize hargs : eraseAll args = as at ht
    cases ht with
    | @call j ts t _ hk ta hfa =>
      subst hargs
      simp only [Ana.expr, AM.bind_ok, AM.pure_ok] at hx
      obtain ⟨args1, s1, h1, ⟨j1, w⟩, s2, h2, rfl, rfl⟩ := hx
      have a := exprs_done_ok args h hd (fun x hx => ta _ (by
        rw [eraseAll_eq]; exact List.mem_map_of_mem hx)) h1
      have hsame := a.same
      subst hsame
      have hvals : ∀ x ∈ args1, ∃ v, x.cv = some v ∧ VOk v := by
        intro x hx
        have htx := a.typed x hx
        obtain ⟨v, hv⟩ : ∃ v, x.erase.cv = some v := by
          exact htx.someValue
        refine ⟨v, by rw [← AExpr.erase_cv, hv], htx.vok (a.inv.ctx (by decide)) hv⟩
      obtain ⟨b1, b2, b3, b4, -⟩ := callFunction_ok haf a.inv hvals (.inl rfl) h2
      obtain ⟨ts1, t1, c1, rfl, c3⟩ := b4 rfl
      obtain ⟨f, hf1, hf2, hf3, hf4⟩ := ctx_fn ((a.ext.ctx (by decide)).fns _ _ hk)
      have := callFunction_plain hf1 hf2 h2
      rw [(a.inv.fn _ _ hf1).key.1] at this
      subst this
      have hc2 := ((a.ext.trans b2).grows.ctx (a := .shallow) (b := .shallow) (by decide) (by decide)).fns _ _ hk
      obtain ⟨g1, g2, -, -, g3⟩ := ctx_fn hc2
      obtain ⟨g1', g2', -, -, g3'⟩ := ctx_fn c1
      rw [g2] at g2'
      cases g2'
      rw [g3] at g3'
      cases g3'
      refine ⟨rfl, b1, a.ext.trans b2, ?_⟩
      simp only [AExpr.erase]
      exact .call c1 (typedAll fun x hx => (a.typed x hx).mono (b2.ctx (by decide))) hfa
    | @builtin f _ vs w ta hm hev =>
      subst hargs
      simp only [Ana.expr, AM.bind_ok, AM.checked_ok, AM.lift_ok, AM.pure_ok] at hx
      obtain ⟨args1, s1, h1, vs1, s2, h2, _, _, ⟨_, rfl⟩, w1, _, ⟨hev1, rfl⟩, rfl, rfl⟩ := hx
      obtain ⟨rfl, hvs⟩ := values_ok h2
      have a := exprs_done_ok args h hd (fun x hx => ta _ (by
        rw [eraseAll_eq]; exact List.mem_map_of_mem hx)) h1
      have hsame := a.same
      subst hsame
      have : vs1 = vs := by
        rw [eraseAll_eq, List.map_map] at hm
        have h3 : args1.map (Expr.cv ∘ AExpr.erase) = args1.map AExpr.cv :=
          List.map_congr_left fun b _ => AExpr.erase_cv b
        rw [h3, hvs] at hm
        exact (List.map_injective_iff.2 fun a b e => Option.some.inj e) hm
      subst this
      rw [hev1] at hev
      cases hev
      refine ⟨rfl, a.inv, a.ext, ?_⟩
      simp only [AExpr.erase]
      exact .builtin (typedAll a.typed) hm hev1

/-- Arguments that have been analyzed before. -/
theorem exprs_done_ok : (es : List AExpr) → {s s' : ASt} → {es' : List AExpr} →
    Inv N s → DoneEs es → (∀ a ∈ es, Typed (ctxOf .shallow s) a.erase) →
    Ana.exprs n af es .forConst .normal s = .ok es' s' → EsDone N es s es' s'
  | [], s, s', es', h, hd, ht, hx => by
    simp only [Ana.exprs, AM.pure_ok] at hx
    obtain ⟨rfl, rfl⟩ := hx
    exact ⟨rfl, h, .refl _ _, by simp⟩
  | e :: es, s, s', es', h, hd, ht, hx => by
    simp only [DoneEs] at hd
    simp only [Ana.exprs, AM.bind_ok, AM.value_ok, AM.pure_ok] at hx
    obtain ⟨e1, s1, h1, v, _, ⟨_, rfl⟩, es1, s2, h2, rfl, rfl⟩ := hx
    have a := expr_done_ok e h hd.1 (ht e (by simp)) h1
    have b := exprs_done_ok es a.inv hd.2 (fun x hx => (ht x (by simp [hx])).mono (a.ext.ctx (by decide))) h2
    refine ⟨by rw [a.same, b.same], b.inv, a.ext.trans b.ext, fun x hx => ?_⟩
    rcases List.mem_cons.1 hx with rfl | hx
    · exact a.typed.mono (b.ext.ctx (by decide))
    · exact b.typed x hx

end

/-- What the second analysis of a statement establishes. -/
structure SDone (N : Nat) (ret : CType) (loop : Bool) (t : AStmt) (s : ASt) (t' : AStmt) (s' : ASt) :
    Prop where
  same : t' = t
  inv : Inv N s'
  ext : Ext [] s s'
  typed : TypedS (ctxOf .forConst s') ret loop t.erase

/-- What the second analysis of several statements establishes. -/
structure SsDone (N : Nat) (ret : CType) (loop : Bool) (ss : List AStmt) (s : ASt) (ss' : List AStmt)
    (s' : ASt) : Prop where
  same : ss' = ss
  inv : Inv N s'
  ext : Ext [] s s'
  typed : TypedSs (ctxOf .forConst s') ret loop (eraseStmts ss)

theorem condition_done {s s' : ASt} {k : Key} {c c' : AExpr} (h : Inv N s) (hd : DoneE c)
    (ht : Typed (ctxOf .shallow s) c.erase) (hx : Ana.condition n af k c .forConst s = .ok c' s') :
    EDone N c s c' s' := by
  simp only [Ana.condition, AM.bind_ok, AM.value_ok, AM.ite_fail_ok, AM.pure_ok] at hx
  obtain ⟨e1, s1, h1, v, _, ⟨hv, rfl⟩, hb, rfl, rfl⟩ := hx
  exact expr_done_ok haf c h hd ht h1

omit haf in
theorem declaredType_done {ty ty' : AType} {t : CType} {s s' : ASt}
    (h : ty.cv.isSome) (hx : Ana.declaredType n af ty s = .ok (ty', t) s') :
    ty' = ty ∧ ty.cv.map Value.type = some t ∧ s' = s := by
  simp only [Ana.declaredType, AM.bind_ok, AM.value_ok, AM.pure_ok, Prod.mk.injEq] at hx
  obtain ⟨ty1, s1, h1, v, _, ⟨hv, rfl⟩, ⟨rfl, rfl⟩, rfl⟩ := hx
  obtain ⟨rfl, rfl⟩ := type_done h h1
  exact ⟨rfl, by simp [hv], rfl⟩

/-- A `let` that has been analyzed before keeps its type. -/
theorem let_done {s s' : ASt} {k : Key} {cv : Option Value} {name : Name} {ty ty' : Option AType}
    {init init' : Option AExpr} {t : CType} (h : Inv N s) (hd : DoneS (.let_ k cv name ty init))
    (ht : ∀ e ∈ init, Typed (ctxOf .shallow s) e.erase)
    (hx : Ana.let_ n af k ty init .forConst s = .ok (t, ty', init') s') :
    ty' = ty ∧ init' = init ∧ cv.map Value.type = some t ∧ Inv N s' ∧ Ext [] s s' ∧
      ∀ e ∈ init, Typed (ctxOf .forConst s') e.erase := by
  simp only [DoneS] at hd
  cases ty with
  | none =>
    cases init with
    | none => simp [Ana.let_, AM.throws_ok] at hx
    | some e =>
      simp only [Ana.let_, AM.bind_ok, AM.value_ok, AM.pure_ok, Prod.mk.injEq] at hx
      obtain ⟨e1, s1, h1, v, _, ⟨hv, rfl⟩, ⟨rfl, rfl, rfl⟩, rfl⟩ := hx
      have a := expr_done_ok haf e h (hd.2 e rfl) (ht e rfl) h1
      have hsame := a.same
      subst hsame
      refine ⟨rfl, rfl, ?_, a.inv, a.ext, ?_⟩
      · simp only at hd
        rw [← hd.1, hv]
        rfl
      · rintro x hx
        simp only [Option.mem_some_iff] at hx
        subst hx
        exact a.typed
  | some ty =>
    cases init with
    | none =>
      simp only [Ana.let_, AM.bind_ok] at hx
      obtain ⟨⟨ty1, t1⟩, s1, h1, hx⟩ := hx
      simp only [AM.pure_ok, Prod.mk.injEq] at hx
      obtain ⟨⟨rfl, rfl, rfl⟩, rfl⟩ := hx
      obtain ⟨rfl, b, rfl⟩ := declaredType_done hd.1.1 h1
      exact ⟨rfl, rfl, by rw [← hd.1.2, b], h, .refl _ _, by simp⟩
    | some e =>
      simp only [Ana.let_, AM.bind_ok] at hx
      obtain ⟨⟨ty1, t1⟩, s1, h1, hx⟩ := hx
      simp only [AM.bind_ok, AM.deref_ok, AM.ite_fail_ok, AM.pure_ok, Prod.mk.injEq] at hx
      obtain ⟨e1, s2, h2, v, _, ⟨hv, rfl⟩, hc, ⟨rfl, rfl, rfl⟩, rfl⟩ := hx
      obtain ⟨rfl, b, rfl⟩ := declaredType_done hd.1.1 h1
      have a := expr_done_ok haf e h (hd.2 e rfl) (ht e rfl) h2
      have hsame := a.same
      subst hsame
      refine ⟨rfl, rfl, by rw [← hd.1.2, b], a.inv, a.ext, ?_⟩
      rintro x hx
      simp only [Option.mem_some_iff] at hx
      subst hx
      exact a.typed

omit haf in
theorem setDecl_same {s : ASt} {k : Key} {d : Decl} (h : s.decl k = some d) : s.setDecl k d = s := by
  unfold ASt.setDecl
  have : (fun j => if j = k then some d else s.decl j) = s.decl := by
    funext j
    split
    · rename_i e; rw [e, h]
    · rfl
  rw [this]

omit haf in
theorem bodyVar {s : ASt} {k : Key} {t : CType} {o : Option Value} {l : Level}
    (hd : s.decl k = some ⟨.let_, o⟩) (hv : (ctxOf l s).vars k = some t) (h : Inv N s) :
    s.decl k = some ⟨.let_, some (Value.unknownOf t)⟩ := by
  cases o with
  | none => simp [ctxOf, hd, declVar] at hv
  | some v =>
    simp only [ctxOf, hd, Option.bind_some, declVar, Option.some.injEq] at hv
    subst hv
    rw [hd, declUnknown h hd (.inl rfl)]
    rfl

omit haf in
theorem declsExt {D : List Key} {s s' : ASt} {ds : List (Key × DeclKind)} (he : Ext D s s')
    (hb : ∀ d ∈ ds, ∃ cv, s.decl d.1 = some ⟨d.2, cv⟩) :
    ∀ d ∈ ds, ∃ cv, s'.decl d.1 = some ⟨d.2, cv⟩ := by
  intro d hm
  obtain ⟨cv, hx⟩ := hb d hm
  obtain ⟨⟨kd, cv'⟩, h1, h2⟩ := he.declKind _ _ hx
  simp only at h2
  subst h2
  exact ⟨cv', h1⟩

mutual

/-- Statements that have been analyzed before. -/
theorem stmt_done_ok : (t : AStmt) → {s s' : ASt} → {ret : CType} → {loop : Bool} → {t' : AStmt} →
    Inv N s → DoneS t → TypedS (ctxOf .shallow s) ret loop t.erase →
    (∀ d ∈ declsS t, ∃ cv, s.decl d.1 = some ⟨d.2, cv⟩) →
    Ana.stmt n af ret .forConst loop t s = .ok t' s' → SDone N ret loop t s t' s'
  | .const_ k cv name ty init, s, s', ret, loop, t', h, hd, ht, hb, hx => by
    simp only [AStmt.erase] at ht
    have hcv : ∃ v, cv = some v := by cases ht <;> exact ⟨_, rfl⟩
    obtain ⟨v, rfl⟩ := hcv
    simp only [Ana.stmt, AM.pure_ok] at hx
    obtain ⟨rfl, rfl⟩ := hx
    refine ⟨rfl, h, .refl _ _, ?_⟩
    simp only [AStmt.erase]
    cases ht with
    | const_ h1 => exact .const_ h1
    | constUnknown h1 h2 => exact .constUnknown h1 h2
  | .let_ k cv name ty init, s, s', ret, loop, t', h, hd, ht, hb, hx => by
    simp only [AStmt.erase] at ht
    simp only [Ana.stmt, AM.bind_ok] at hx
    obtain ⟨⟨t, ty1, init1⟩, s1, h1, hx⟩ := hx
    simp only [AM.bind_ok, AM.modify_ok, AM.pure_ok] at hx
    obtain ⟨_, s2, rfl, rfl, rfl⟩ := hx
    have hinit : ∀ e ∈ init, Typed (ctxOf .shallow s) e.erase := by
      intro e he
      cases init with
      | none => simp at he
      | some e1 =>
        simp only [Option.mem_some_iff] at he
        subst he
        simp only [Option.map_some] at ht
        cases ht with
        | letInit _ _ h3 => exact h3
    obtain ⟨rfl, rfl, a3, a4, a5, a6⟩ := let_done haf h hd hinit h1
    have hvar : ∃ u, cv = some (Value.unknownOf u) ∧ (ctxOf .shallow s).consts k = none ∧
        (ctxOf .shallow s).vars k = some u ∧ ∀ e ∈ init1, ∃ v, e.erase.cv = some v ∧
          v.type.isConvertibleTo u = true := by
      cases init1 with
      | none =>
        simp only [Option.map_none] at ht
        cases ht with
        | letNone h1 h2 => exact ⟨_, rfl, h1, h2, by simp⟩
      | some e1 =>
        simp only [Option.map_some] at ht
        cases ht with
        | letInit h1 h2 h3 h4 h5 =>
          refine ⟨_, rfl, h1, h2, fun e he => ?_⟩
          simp only [Option.mem_some_iff] at he
          subst he
          exact ⟨_, h4, h5⟩
    obtain ⟨u, rfl, b1, b2, b3⟩ := hvar
    simp only [Option.map_some, Value.unknownOf, Option.some.injEq] at a3
    subst a3
    obtain ⟨o, hdecl⟩ := hb (k, .let_) (by simp [declsS])
    simp only at hdecl
    have hdecl' := a5.declSome _ _ _ (bodyVar hdecl b2 h)
    rw [setDecl_same hdecl']
    refine ⟨rfl, a4, a5, ?_⟩
    simp only [AStmt.erase]
    have c1 := (a5.ctx (l := .shallow) (by decide)).vars _ _ b2 b1
    have c2 := (a5.ctx (l := .shallow) (by decide)).vars' _ _ b2
    cases init1 with
    | none => exact .letNone c1 c2
    | some e =>
      obtain ⟨v, d1, d2⟩ := b3 e rfl
      exact .letInit c1 c2 (a6 e rfl) d1 d2
  | .staticAssert k cv e, s, s', ret, loop, t', h, hd, ht, hb, hx => by
    simp only [AStmt.erase] at ht
    cases ht with
    | staticAssert =>
      simp only [Ana.stmt, AM.bind_ok, AM.assert_ok, AM.pure_ok] at hx
      obtain ⟨_, _, ⟨_, rfl⟩, rfl, rfl⟩ := hx
      refine ⟨rfl, h, .refl _ _, ?_⟩
      simp only [AStmt.erase]
      exact .staticAssert
  | .ifThen k cv c t, s, s', ret, loop, t', h, hd, ht, hb, hx => by
    simp only [DoneS] at hd
    obtain ⟨rfl, hd1, hd2⟩ := hd
    simp only [AStmt.erase] at ht
    cases ht with
    | ifThen t1 t2 t3 t4 =>
      simp only [Ana.stmt, AM.bind_ok, AM.pure_ok] at hx
      obtain ⟨c1, s1, h1, t1', s2, h2, rfl, rfl⟩ := hx
      have a := condition_done haf h hd1 t1 h1
      have b := stmt_done_ok t a.inv hd2 (t4.mono (a.ext.ctx (by decide)))
        (fun d hm => declsExt a.ext hb d (by simpa [declsS] using hm)) h2
      refine ⟨by rw [a.same, b.same], b.inv, a.ext.trans b.ext, ?_⟩
      simp only [AStmt.erase]
      exact .ifThen (a.typed.mono (b.ext.ctx (by decide))) t2 t3 b.typed
  | .ifElse k cv c t e, s, s', ret, loop, t', h, hd, ht, hb, hx => by
    simp only [DoneS] at hd
    obtain ⟨rfl, hd1, hd2, hd3⟩ := hd
    simp only [AStmt.erase] at ht
    cases ht with
    | ifElse t1 t2 t3 t4 t5 =>
      simp only [Ana.stmt, AM.bind_ok, AM.pure_ok] at hx
      obtain ⟨c1, s1, h1, t1', s2, h2, e1', s3, h3, rfl, rfl⟩ := hx
      have a := condition_done haf h hd1 t1 h1
      have b := stmt_done_ok t a.inv hd2 (t4.mono (a.ext.ctx (by decide)))
        (fun d hm => declsExt a.ext hb d (by simp [declsS, hm])) h2
      have d := stmt_done_ok e b.inv hd3 (t5.mono ((a.ext.trans b.ext).ctx (by decide)))
        (fun d hm => declsExt (a.ext.trans b.ext) hb d (by simp [declsS, hm])) h3
      refine ⟨by rw [a.same, b.same, d.same], d.inv, a.ext.trans (b.ext.trans d.ext), ?_⟩
      simp only [AStmt.erase]
      exact .ifElse (a.typed.mono ((b.ext.trans d.ext).ctx (by decide))) t2 t3
        (b.typed.mono (d.ext.ctx (by decide))) d.typed
  | .while_ k cv c t, s, s', ret, loop, t', h, hd, ht, hb, hx => by
    simp only [DoneS] at hd
    obtain ⟨rfl, hd1, hd2⟩ := hd
    simp only [AStmt.erase] at ht
    cases ht with
    | while_ t1 t2 t3 t4 =>
      simp only [Ana.stmt, AM.bind_ok, AM.pure_ok] at hx
      obtain ⟨c1, s1, h1, t1', s2, h2, rfl, rfl⟩ := hx
      have a := condition_done haf h hd1 t1 h1
      have b := stmt_done_ok t a.inv hd2 (t4.mono (a.ext.ctx (by decide)))
        (fun d hm => declsExt a.ext hb d (by simpa [declsS] using hm)) h2
      refine ⟨by rw [a.same, b.same], b.inv, a.ext.trans b.ext, ?_⟩
      simp only [AStmt.erase]
      exact .while_ (a.typed.mono (b.ext.ctx (by decide))) t2 t3 b.typed
  | .control k cv c e, s, s', ret, loop, t', h, hd, ht, hb, hx => by
    simp only [DoneS] at hd
    simp only [AStmt.erase] at ht
    generalize he : e.map AExpr.erase = o at ht
    cases ht with
    | break_ =>
      simp only [Option.map_eq_none_iff] at he
      subst he
      simp only [Ana.stmt, if_true, AM.pure_ok] at hx
      obtain ⟨rfl, rfl⟩ := hx
      exact ⟨rfl, h, .refl _ _, .break_⟩
    | continue_ =>
      simp only [Option.map_eq_none_iff] at he
      subst he
      simp only [Ana.stmt, if_true, AM.pure_ok] at hx
      obtain ⟨rfl, rfl⟩ := hx
      exact ⟨rfl, h, .refl _ _, .continue_⟩
    | returnVoid hv =>
      simp only [Option.map_eq_none_iff] at he
      subst he
      simp only [Ana.stmt, AM.ite_fail_ok, AM.pure_ok] at hx
      obtain ⟨_, rfl, rfl⟩ := hx
      exact ⟨rfl, h, .refl _ _, .returnVoid hv⟩
    | @return_ _ e0 v w t1 t2 t3 t4 =>
      cases e with
      | none => cases he
      | some e =>
        simp only [Option.map_some, Option.some.injEq] at he
        subst he
        simp only [Ana.stmt, AM.bind_ok, AM.value_ok, AM.ite_fail_ok, AM.pure_ok] at hx
        obtain ⟨e1, s1, h1, v1, _, ⟨hv, rfl⟩, hc, w1, _, hf, rfl, rfl⟩ := hx
        obtain ⟨hf', rfl⟩ := AM.foldResult_ok hf
        have a := expr_done_ok haf e h (hd e rfl) t1 h1
        have hsame := a.same
        subst hsame
        rw [AExpr.erase_cv, hv] at t2
        cases t2
        have := Folds.unique hf' t4
        subst this
        refine ⟨rfl, a.inv, a.ext, ?_⟩
        simp only [AStmt.erase]
        exact .return_ a.typed (by rw [AExpr.erase_cv, hv]) t3 t4
  | .assign k cv name ref e, s, s', ret, loop, t', h, hd, ht, hb, hx => by
    simp only [DoneS] at hd
    simp only [AStmt.erase] at ht
    cases ht with
    | @assign _ j t _ v w t1 t2 t3 t4 t5 t6 =>
      simp only [Ana.stmt, AM.bind_ok, AM.read_ok] at hx
      obtain ⟨_, _, ⟨rfl, rfl⟩, hx⟩ := hx
      cases hfj : s.fns j with
      | some f => simp [hfj, AM.fail_ok] at hx
      | none =>
        simp only [hfj] at hx
        cases hdj : s.decl j with
        | none => simp [hdj, AM.throws_ok] at hx
        | some d =>
          obtain ⟨kd, o⟩ := d
          cases kd with
          | const_ => simp [hdj, AM.fail_ok] at hx
          | param => simp [hdj, AM.throws_ok] at hx
          | width => simp [hdj, AM.throws_ok] at hx
          | let_ =>
            simp only [hdj, AM.bind_ok, AM.value_ok, AM.read_ok, AM.ite_fail_ok, AM.pure_ok] at hx
            obtain ⟨e1, s1, h1, v1, _, ⟨hv, rfl⟩, _, _, ⟨rfl, rfl⟩, d, _, ⟨hd1, rfl⟩, dv, _, ⟨hdv, rfl⟩, hc,
              w1, _, hf, rfl, rfl⟩ := hx
            obtain ⟨hf', rfl⟩ := AM.foldResult_ok hf
            have a := expr_done_ok haf e h hd t3 h1
            have hsame := a.same
            subst hsame
            have hj := a.ext.declSome _ _ _ (bodyVar hdj t2 h)
            rw [hd1] at hj
            cases hj
            simp only [Option.some.injEq] at hdv
            subst hdv
            rw [AExpr.erase_cv, hv] at t4
            cases t4
            have := Folds.unique hf' t6
            subst this
            refine ⟨rfl, a.inv, a.ext, ?_⟩
            simp only [AStmt.erase]
            exact .assign ((a.ext.ctx (l := .shallow) (by decide)).vars _ _ t2 t1)
              ((a.ext.ctx (l := .shallow) (by decide)).vars' _ _ t2) a.typed
              (by rw [AExpr.erase_cv, hv]) t5 t6
  | .block k cv ss, s, s', ret, loop, t', h, hd, ht, hb, hx => by
    simp only [DoneS] at hd
    obtain ⟨rfl, hd⟩ := hd
    simp only [AStmt.erase] at ht
    cases ht with
    | block ht =>
      simp only [Ana.stmt, AM.bind_ok, AM.pure_ok] at hx
      obtain ⟨ss1, s1, h1, rfl, rfl⟩ := hx
      have a := stmts_done_ok ss h hd ht (fun d hm => hb d (by simpa [declsS] using hm)) h1
      refine ⟨by rw [a.same], a.inv, a.ext, ?_⟩
      simp only [AStmt.erase]
      exact .block a.typed
  | .call e, s, s', ret, loop, t', h, hd, ht, hb, hx => by
    simp only [DoneS] at hd
    simp only [AStmt.erase] at ht
    cases e with
    | call k cv st name ref args =>
      simp only [AExpr.erase] at ht
      cases ht with
      | call ht =>
        simp only [Ana.stmt, AM.bind_ok, AM.pure_ok] at hx
        obtain ⟨e1, s1, h1, rfl, rfl⟩ := hx
        obtain ⟨cv', ref', args', rfl, h1'⟩ := call_stmt h1
        have a := expr_done_ok haf (.call k cv false name ref args) h (by simpa [DoneE] using hd)
          (by simpa only [AExpr.erase] using ht) h1'
        have hsame := a.same
        simp only [AExpr.call.injEq, true_and] at hsame
        obtain ⟨rfl, rfl, rfl⟩ := hsame
        refine ⟨rfl, a.inv, a.ext, ?_⟩
        have := a.typed
        simp only [AStmt.erase, AExpr.erase] at this ⊢
        exact .call this
    | _ => exfalso; simp only [AExpr.erase] at ht; cases ht

/-- Several statements that have been analyzed before. -/
theorem stmts_done_ok : (ss : List AStmt) → {s s' : ASt} → {ret : CType} → {loop : Bool} →
    {ss' : List AStmt} → Inv N s → DoneSs ss → TypedSs (ctxOf .shallow s) ret loop (eraseStmts ss) →
    (∀ d ∈ declsSs ss, ∃ cv, s.decl d.1 = some ⟨d.2, cv⟩) →
    Ana.stmts n af ret .forConst loop ss s = .ok ss' s' → SsDone N ret loop ss s ss' s'
  | [], s, s', ret, loop, ss', h, _, _, _, hx => by
    simp only [Ana.stmts, AM.pure_ok] at hx
    obtain ⟨rfl, rfl⟩ := hx
    exact ⟨rfl, h, .refl _ _, .nil⟩
  | t :: ss, s, s', ret, loop, ss', h, hd, ht, hb, hx => by
    simp only [DoneSs] at hd
    simp only [eraseStmts] at ht
    cases ht with
    | cons t1 t2 =>
      simp only [Ana.stmts, AM.bind_ok, AM.pure_ok] at hx
      obtain ⟨t', s1, h1, ss1, s2, h2, rfl, rfl⟩ := hx
      have a := stmt_done_ok t h hd.1 t1 (fun d hm => hb d (by simp [declsSs, hm])) h1
      have b := stmts_done_ok ss a.inv hd.2 (t2.mono (a.ext.ctx (by decide)))
        (fun d hm => declsExt a.ext hb d (by simp [declsSs, hm])) h2
      refine ⟨by rw [a.same, b.same], b.inv, a.ext.trans b.ext, ?_⟩
      simp only [eraseStmts]
      exact .cons (a.typed.mono (b.ext.ctx (by decide))) b.typed

end

end

end Bms
