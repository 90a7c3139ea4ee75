import Verif.Lemmas.AnalyzeExpr

/-!
# Analysis of statements that have not been analyzed before
-/

namespace Bms

open Spec

/-- Keys of declarations. -/
abbrev keysD (ds : List (Key × DeclKind)) : List Key := ds.map Prod.fst

/-- In which situations statements are analyzed for the first time. -/
structure SPre (level : Level) (s : ASt) (refs : List Lookup) (ds : List (Key × DeclKind)) : Prop where
  mode : Mode level .normal s refs
  params : ParamRefs s refs
  top : ∃ k f, k ∈ s.stack ∧ s.fns k = some f ∧ f.level.rank < 2 ∧ ∀ d ∈ ds, d ∈ declsSs f.body
  unset : ∀ d ∈ ds, Unset s d.1
  nodup : (keysD ds).Nodup

theorem SPre.sub {level : Level} {s : ASt} {refs refs' : List Lookup} {ds ds' : List (Key × DeclKind)}
    (h : SPre level s refs ds) (hr : ∀ r ∈ refs', r ∈ refs) (hd : ds'.Sublist ds) :
    SPre level s refs' ds' where
  mode := h.mode.sub hr
  params := h.params.sub hr
  top := by
    obtain ⟨k, f, h1, h2, h3, h4⟩ := h.top
    exact ⟨k, f, h1, h2, h3, fun d hm => h4 d (hd.subset hm)⟩
  unset d hm := h.unset d (hd.subset hm)
  nodup := (hd.map Prod.fst).nodup h.nodup

theorem SPre.ext {level : Level} {s s' : ASt} {refs : List Lookup} {ds : List (Key × DeclKind)}
    {D : List Key} (h : SPre level s refs ds) (he : Ext D s s') (hD : ∀ d ∈ ds, d.1 ∉ D) :
    SPre level s' refs ds where
  mode := h.mode.ext he
  params := h.params.ext he
  top := by
    obtain ⟨k, f, h1, h2, h3, h4⟩ := h.top
    exact ⟨k, f, he.stack ▸ h1, (he.onStack k h1).trans h2, h3, h4⟩
  unset d hm kd v hx := by
    obtain ⟨k, f, h1, h2, h3, h4⟩ := h.top
    rw [he.onStackDecl k h1 f h2 d.1 (List.mem_append_right _ (mem_keys (h4 d hm))) (hD d hm)] at hx
    exact h.unset d hm kd v hx
  nodup := h.nodup

/-- What analysis of a type establishes, together with the type. -/
theorem declaredType_ok {N n : Nat} {af : Key → Level → AM Unit} (haf : AfOk N af) {s s' : ASt}
    {ty ty' : AType} {t : CType} (h : Inv N s) (hr : RawT ty)
    (hx : Ana.declaredType n af ty s = .ok (ty', t) s') : Inv N s' ∧ Ext [] s s' ∧ SigT ty' t := by
  simp only [Ana.declaredType, AM.bind_ok, AM.value_ok, AM.pure_ok, Prod.mk.injEq] at hx
  obtain ⟨ty1, s1, h1, v, _, ⟨hv, rfl⟩, ⟨rfl, rfl⟩, rfl⟩ := hx
  have a := type_raw_ok haf ty h hr h1
  obtain ⟨t, ht⟩ := a.sig
  have := ht.1
  rw [hv] at this
  cases this
  exact ⟨a.inv, a.ext, ht⟩

theorem const_ok {N n : Nat} {af : Key → Level → AM Unit} (haf : AfOk N af) {s s' : ASt} {k : Key}
    {ty ty' : Option AType} {init init' : AExpr} {v : Value} (h : Inv N s) (hty : ∀ t ∈ ty, RawT t)
    (hr : RawE init) (hx : Ana.const_ n af k ty init s = .ok (v, ty', init') s') :
    Inv N s' ∧ Ext [] s s' ∧ VOk v := by
  cases ty with
  | none =>
    simp only [Ana.const_, AM.bind_ok, AM.deref_ok, AM.assert_ok, AM.pure_ok, Prod.mk.injEq] at hx
    obtain ⟨e1, s1, h1, w, _, ⟨hw, rfl⟩, _, _, ⟨_, rfl⟩, ⟨rfl, _⟩, rfl⟩ := hx
    have a := expr_raw_ok haf init h hr (.inl rfl) h1
    exact ⟨a.inv, a.ext, a.vok _ hw⟩
  | some ty =>
    simp only [Ana.const_, AM.bind_ok] at hx
    obtain ⟨⟨ty1, t⟩, s1, h1, hx⟩ := hx
    simp only [AM.bind_ok, AM.deref_ok, AM.ite_fail_ok, AM.lift_ok, AM.pure_ok, Prod.mk.injEq] at hx
    obtain ⟨e1, s2, h2, u, _, ⟨hu, rfl⟩, _, w, _, ⟨hw, rfl⟩, ⟨rfl, _⟩, rfl⟩ := hx
    obtain ⟨b1, b2, b3⟩ := declaredType_ok haf h (hty ty rfl) h1
    have a := expr_raw_ok haf init b1 hr (.inl rfl) h2
    exact ⟨a.inv, b2.trans a.ext, (a.vok u hu).conversion b3.2.2 (.inl hw)⟩

theorem staticAssert_ok {N n : Nat} {af : Key → Level → AM Unit} (haf : AfOk N af) {s s' : ASt}
    {k : Key} {e e' : AExpr} {v : Value} (h : Inv N s) (hr : RawE e)
    (hx : Ana.staticAssert n af k e s = .ok (v, e') s') :
    Inv N s' ∧ Ext [] s s' ∧ v = Value.known CVal.tt := by
  simp only [Ana.staticAssert, AM.bind_ok, AM.assert_ok, AM.deref_ok, AM.ite_fail_ok, AM.get_ok,
    AM.pure_ok, Prod.mk.injEq] at hx
  obtain ⟨e1, s1, h1, _, _, ⟨_, rfl⟩, w, _, ⟨hw, rfl⟩, hty, b, _, ⟨hb, rfl⟩, hbt, ⟨rfl, _⟩, rfl⟩ := hx
  have a := expr_raw_ok haf e h hr (.inl rfl) h1
  refine ⟨a.inv, a.ext, ?_⟩
  have hv := a.vok _ hw
  obtain ⟨t, o⟩ := w
  simp only [ne_eq, not_not] at hty
  subst hty
  cases o with
  | none => simp [Value.asBool] at hb
  | some x =>
    simp only [Value.asBool, if_true, Outcome.ok.injEq] at hb
    have h1 : x ≠ 0 := by
      intro e
      subst e
      simp at hb
      exact hbt (by simp [← hb])
    have h2 := (hv.2 x rfl).2
    have : x = 1 := by
      simp only [InType] at h2
      rcases h2 with h2 | h2
      · exact absurd h2 h1
      · exact h2
    subst this
    rfl

/-- What the first analysis of a statement establishes. -/
structure SOk (N : Nat) (level : Level) (ret : CType) (loop : Bool) (t : AStmt) (s : ASt) (t' : AStmt)
    (s' : ASt) : Prop where
  inv : Inv N s'
  ext : Ext (keysD (declsS t)) s s'
  typed : TypedS (ctxOf (innerOf level) s') ret loop t'.erase
  done : DoneS t'
  decls : declsS t' = declsS t

/-- What the first analysis of several statements establishes. -/
structure SsOk (N : Nat) (level : Level) (ret : CType) (loop : Bool) (ss : List AStmt) (s : ASt)
    (ss' : List AStmt) (s' : ASt) : Prop where
  inv : Inv N s'
  ext : Ext (keysD (declsSs ss)) s s'
  typed : TypedSs (ctxOf (innerOf level) s') ret loop (eraseStmts ss')
  done : DoneSs ss'
  decls : declsSs ss' = declsSs ss

theorem Ext.nil {D : List Key} {s s' : ASt} (h : Ext [] s s') : Ext D s s' := h.mono (by simp)

theorem convertible_self (t : CType) : t.isConvertibleTo t = true := by simp [CType.isConvertibleTo]

/-- A call as a statement is analyzed like a call in an expression. -/
theorem call_stmt {n : Nat} {af : Key → Level → AM Unit} {k : Key} {cv : Option Value} {name : Name}
    {ref : Option Lookup} {args : List AExpr} {level : Level} {ctx : ECtx} {s s' : ASt} {e' : AExpr}
    (h : Ana.expr n af (.call k cv true name ref args) level ctx s = .ok e' s') :
    ∃ cv' ref' args', e' = .call k cv' true name ref' args' ∧
      Ana.expr n af (.call k cv false name ref args) level ctx s =
        .ok (.call k cv' false name ref' args') s' := by
  cases ref with
  | none => simp [Ana.expr, AM.throws_ok] at h
  | some r =>
    cases r with
    | param p => simp [Ana.expr, AM.bind_ok, AM.ub_ok] at h
    | builtin f =>
      simp only [Ana.expr, AM.bind_ok, AM.pure_ok] at h ⊢
      obtain ⟨args1, s1, h1, vs, s2, h2, x, s3, h3, w, s4, h4, rfl, rfl⟩ := h
      exact ⟨_, _, _, rfl, args1, s1, h1, vs, s2, h2, x, s3, h3, w, s4, h4, rfl, rfl⟩
    | node j0 =>
      simp only [Ana.expr, AM.bind_ok, AM.pure_ok] at h ⊢
      obtain ⟨args1, s1, h1, jw, s2, h2, rfl, rfl⟩ := h
      exact ⟨_, _, _, rfl, args1, s1, h1, jw, s2, h2, rfl, rfl⟩

theorem disjoint_of_nodup {a b : List (Key × DeclKind)} (h : (keysD (a ++ b)).Nodup) :
    ∀ d ∈ b, d.1 ∉ keysD a := by
  intro d hd hm
  rw [keysD, List.map_append, List.nodup_append] at h
  exact h.2.2 _ hm _ (mem_keys hd) rfl

section

variable {N n : Nat} {af : Key → Level → AM Unit} (haf : AfOk N af)

include haf

theorem condition_ok {s s' : ASt} {level : Level} {k : Key} {c c' : AExpr} (h : Inv N s) (hr : RawE c)
    (hm : Mode level .normal s (refsE c)) (hp : ParamRefs s (refsE c))
    (hx : Ana.condition n af k c level s = .ok c' s') :
    Inv N s' ∧ Ext [] s s' ∧ DoneE c' ∧ Typed (ctxOf (innerOf level) s') c'.erase ∧
      ∃ v, c'.erase.cv = some v ∧ v.type = .bool := by
  simp only [Ana.condition, AM.bind_ok, AM.value_ok, AM.ite_fail_ok, AM.pure_ok] at hx
  obtain ⟨e1, s1, h1, v, _, ⟨hv, rfl⟩, hb, rfl, rfl⟩ := hx
  have a := expr_raw_ok haf c h hr hm h1
  exact ⟨a.inv, a.ext, a.done, a.typed rfl hp (by simp [hv]), v, by rw [AExpr.erase_cv]; exact hv,
    by simpa using hb⟩

theorem let_ok {s s' : ASt} {level : Level} {k : Key} {ty ty' : Option AType}
    {init init' : Option AExpr} {t : CType} (h : Inv N s) (hty : ∀ t ∈ ty, RawT t)
    (hr : ∀ e ∈ init, RawE e) (hm : Mode level .normal s (refsO refsE init))
    (hp : ParamRefs s (refsO refsE init))
    (hx : Ana.let_ n af k ty init level s = .ok (t, ty', init') s') :
    Inv N s' ∧ Ext [] s s' ∧ t.WF ∧
      ((match ty', init' with
        | none, none => False
        | none, some e => e.cv.map Value.type = some t
        | some ty, _ => ty.cv.isSome ∧ ty.cv.map Value.type = some t) ∧ ∀ e ∈ init', DoneE e) ∧
      ∀ e ∈ init', Typed (ctxOf (innerOf level) s') e.erase ∧
        ∃ v, e.erase.cv = some v ∧ v.type.isConvertibleTo t = true := by
  cases ty with
  | none =>
    cases init with
    | none => simp [Ana.let_, AM.throws_ok] at hx
    | some e =>
      simp only [Ana.let_, AM.bind_ok, AM.value_ok, AM.pure_ok, Prod.mk.injEq] at hx
      obtain ⟨e1, s1, h1, v, _, ⟨hv, rfl⟩, ⟨rfl, rfl, rfl⟩, rfl⟩ := hx
      have a := expr_raw_ok haf e h (hr e rfl) hm h1
      refine ⟨a.inv, a.ext, (a.vok v hv).1, ⟨by simp [hv], fun x hx => ?_⟩, fun x hx => ?_⟩ <;>
        simp only [Option.mem_some_iff] at hx <;> subst hx
      · exact a.done
      · exact ⟨a.typed rfl hp (by simp [hv]), v, by rw [AExpr.erase_cv]; exact hv,
          convertible_self _⟩
  | some ty =>
    cases init with
    | none =>
      simp only [Ana.let_, AM.bind_ok] at hx
      obtain ⟨⟨ty1, t1⟩, s1, h1, hx⟩ := hx
      simp only [AM.pure_ok, Prod.mk.injEq] at hx
      obtain ⟨⟨rfl, rfl, rfl⟩, rfl⟩ := hx
      obtain ⟨b1, b2, b3⟩ := declaredType_ok haf h (hty ty rfl) h1
      exact ⟨b1, b2, b3.2.2, ⟨by simp [b3.1, Value.unknownOf], by simp⟩, by simp⟩
    | some e =>
      simp only [Ana.let_, AM.bind_ok] at hx
      obtain ⟨⟨ty1, t1⟩, s1, h1, hx⟩ := hx
      simp only [AM.bind_ok, AM.deref_ok, AM.ite_fail_ok, AM.pure_ok, Prod.mk.injEq] at hx
      obtain ⟨e1, s2, h2, v, _, ⟨hv, rfl⟩, hc, ⟨rfl, rfl, rfl⟩, rfl⟩ := hx
      obtain ⟨b1, b2, b3⟩ := declaredType_ok haf h (hty ty rfl) h1
      have a := expr_raw_ok haf e b1 (hr e rfl) (hm.ext b2) h2
      refine ⟨a.inv, b2.trans a.ext, b3.2.2, ⟨by simp [b3.1, Value.unknownOf], fun x hx => ?_⟩,
        fun x hx => ?_⟩ <;>
        simp only [Option.mem_some_iff] at hx <;> subst hx
      · exact a.done
      · exact ⟨a.typed rfl (hp.ext b2) (by simp [hv]), v, by rw [AExpr.erase_cv]; exact hv,
          by simpa using hc⟩

mutual

/-- Statements that have not been analyzed before. -/
theorem stmt_raw_ok : (t : AStmt) → {s s' : ASt} → {level : Level} → {ret : CType} → {loop : Bool} →
    {t' : AStmt} → Inv N s → RawS t → SPre level s (refsS t) (declsS t) →
    Ana.stmt n af ret level loop t s = .ok t' s' → SOk N level ret loop t s t' s'
  | .const_ k cv name ty init, s, s', level, ret, loop, t', h, hr, hp, hx => by
    simp only [RawS] at hr
    obtain ⟨rfl, hty, hr⟩ := hr
    simp only [Ana.stmt, AM.bind_ok] at hx
    obtain ⟨⟨v, ty1, init1⟩, s1, h1, hx⟩ := hx
    simp only [AM.bind_ok, AM.modify_ok, AM.pure_ok] at hx
    obtain ⟨_, s2, rfl, rfl, rfl⟩ := hx
    obtain ⟨a1, a2, a3⟩ := const_ok haf h hty hr h1
    have hp1 := hp.ext a2 (by simp)
    obtain ⟨kk, f, p1, p2, p3, p4⟩ := hp1.top
    obtain ⟨b1, b2⟩ := setDecl_ok a1 p1 p2 p3 (p4 (k, .const_) (by simp [declsS]))
      (hp1.unset (k, .const_) (by simp [declsS])) (v := v) a3
    refine ⟨b1, (a2.nil).trans b2, ?_, by simp [DoneS], by simp [declsS]⟩
    simp only [AStmt.erase]
    obtain ⟨t, o⟩ := v
    cases o with
    | none =>
      exact .constUnknown (by simp [ctxOf, ASt.setDecl, declConst]) (by simp [ctxOf, ASt.setDecl, declVar])
    | some x => exact .const_ (v := ⟨t, x⟩) (by simp [ctxOf, ASt.setDecl, declConst])
  | .let_ k cv name ty init, s, s', level, ret, loop, t', h, hr, hp, hx => by
    simp only [RawS] at hr
    obtain ⟨rfl, hty, hr⟩ := hr
    simp only [Ana.stmt, AM.bind_ok] at hx
    obtain ⟨⟨t, ty1, init1⟩, s1, h1, hx⟩ := hx
    simp only [AM.bind_ok, AM.modify_ok, AM.pure_ok] at hx
    obtain ⟨_, s2, rfl, rfl, rfl⟩ := hx
    have hsub : ∀ r ∈ refsO refsE init, r ∈ refsS (.let_ k none name ty init) := fun r hr => by
      simp [refsS, hr]
    obtain ⟨a1, a2, a3, a4, a5⟩ := let_ok haf h hty hr (hp.mode.sub hsub) (hp.params.sub hsub) h1
    have hp1 := hp.ext a2 (by simp)
    obtain ⟨kk, f, p1, p2, p3, p4⟩ := hp1.top
    obtain ⟨b1, b2⟩ := setDecl_ok a1 p1 p2 p3 (p4 (k, .let_) (by simp [declsS]))
      (hp1.unset (k, .let_) (by simp [declsS])) (v := Value.unknownOf t) ⟨rfl, a3⟩
    refine ⟨b1, (a2.nil).trans b2, ?_, ?_, by simp [declsS]⟩
    · simp only [AStmt.erase]
      have hc1 : (ctxOf (innerOf level) (s1.setDecl k ⟨.let_, some (Value.unknownOf t)⟩)).consts k = none := by
        simp [ctxOf, ASt.setDecl, declConst]
      have hc2 : (ctxOf (innerOf level) (s1.setDecl k ⟨.let_, some (Value.unknownOf t)⟩)).vars k = some t := by
        simp [ctxOf, ASt.setDecl, declVar, Value.unknownOf]
      cases init1 with
      | none => exact .letNone hc1 hc2
      | some e =>
        obtain ⟨c1, v, c2, c3⟩ := a5 e rfl
        exact .letInit hc1 hc2 (c1.mono (b2.ctx (innerOf_ne _))) c2 c3
    · simp only [DoneS]
      refine ⟨?_, a4.2⟩
      have := a4.1
      cases ty1 <;> cases init1 <;> simpa [Value.unknownOf] using this
  | .staticAssert k cv e, s, s', level, ret, loop, t', h, hr, hp, hx => by
    simp only [RawS] at hr
    obtain ⟨rfl, hr⟩ := hr
    simp only [Ana.stmt, AM.bind_ok] at hx
    obtain ⟨⟨v, e1⟩, s1, h1, hx⟩ := hx
    simp only [AM.pure_ok] at hx
    obtain ⟨rfl, rfl⟩ := hx
    obtain ⟨a1, a2, rfl⟩ := staticAssert_ok haf h hr h1
    refine ⟨a1, a2.nil, ?_, by simp [DoneS], by simp [declsS]⟩
    simp only [AStmt.erase]
    exact .staticAssert
  | .ifThen k cv c t, s, s', level, ret, loop, t', h, hr, hp, hx => by
    simp only [RawS] at hr
    simp only [Ana.stmt, AM.bind_ok, AM.pure_ok] at hx
    obtain ⟨c1, s1, h1, t1, s2, h2, rfl, rfl⟩ := hx
    have hsub : ∀ r ∈ refsE c, r ∈ refsS (.ifThen k cv c t) := fun r hr => by simp [refsS, hr]
    obtain ⟨a1, a2, a3, a4, v, a5, a6⟩ := condition_ok haf h hr.2.1 (hp.mode.sub hsub)
      (hp.params.sub hsub) h1
    have b := stmt_raw_ok t a1 hr.2.2 ((hp.sub (fun r hr => by simp [refsS, hr])
      (by simp [declsS])).ext a2 (by simp)) h2
    refine ⟨b.inv, (a2.nil).trans b.ext, ?_, ⟨rfl, a3, b.done⟩, by simp [declsS, b.decls]⟩
    simp only [AStmt.erase]
    exact .ifThen (a4.mono (b.ext.ctx (innerOf_ne _))) a5 a6 b.typed
  | .ifElse k cv c t e, s, s', level, ret, loop, t', h, hr, hp, hx => by
    simp only [RawS] at hr
    simp only [Ana.stmt, AM.bind_ok, AM.pure_ok] at hx
    obtain ⟨c1, s1, h1, t1, s2, h2, e1, s3, h3, rfl, rfl⟩ := hx
    have hsub : ∀ r ∈ refsE c, r ∈ refsS (.ifElse k cv c t e) := fun r hr => by simp [refsS, hr]
    obtain ⟨a1, a2, a3, a4, v, a5, a6⟩ := condition_ok haf h hr.2.1 (hp.mode.sub hsub)
      (hp.params.sub hsub) h1
    have b := stmt_raw_ok t a1 hr.2.2.1 ((hp.sub (fun r hr => by simp [refsS, hr])
      (by simp [declsS])).ext a2 (by simp)) h2
    have hnd := hp.nodup
    simp only [declsS] at hnd
    have d := stmt_raw_ok e b.inv hr.2.2.2 ((hp.sub (fun r hr => by simp [refsS, hr])
      (by simp [declsS])).ext ((a2.nil).trans b.ext) (disjoint_of_nodup hnd)) h3
    refine ⟨d.inv, (a2.nil).trans ((b.ext.mono ?_).trans (d.ext.mono ?_)), ?_,
      ⟨rfl, a3, b.done, d.done⟩, by simp [declsS, b.decls, d.decls]⟩
    · intro x hx; simp only [declsS, keysD, List.map_append]; exact List.mem_append_left _ hx
    · intro x hx; simp only [declsS, keysD, List.map_append]; exact List.mem_append_right _ hx
    simp only [AStmt.erase]
    exact .ifElse (a4.mono ((b.ext.ctx (innerOf_ne _)).trans (d.ext.ctx (innerOf_ne _)))) a5 a6
      (b.typed.mono (d.ext.ctx (innerOf_ne _))) d.typed
  | .while_ k cv c t, s, s', level, ret, loop, t', h, hr, hp, hx => by
    simp only [RawS] at hr
    simp only [Ana.stmt, AM.bind_ok, AM.pure_ok] at hx
    obtain ⟨c1, s1, h1, t1, s2, h2, rfl, rfl⟩ := hx
    have hsub : ∀ r ∈ refsE c, r ∈ refsS (.while_ k cv c t) := fun r hr => by simp [refsS, hr]
    obtain ⟨a1, a2, a3, a4, v, a5, a6⟩ := condition_ok haf h hr.2.1 (hp.mode.sub hsub)
      (hp.params.sub hsub) h1
    have b := stmt_raw_ok t a1 hr.2.2 ((hp.sub (fun r hr => by simp [refsS, hr])
      (by simp [declsS])).ext a2 (by simp)) h2
    refine ⟨b.inv, (a2.nil).trans b.ext, ?_, ⟨rfl, a3, b.done⟩, by simp [declsS, b.decls]⟩
    simp only [AStmt.erase]
    exact .while_ (a4.mono (b.ext.ctx (innerOf_ne _))) a5 a6 b.typed
  | .control k cv c e, s, s', level, ret, loop, t', h, hr, hp, hx => by
    simp only [RawS] at hr
    cases c with
    | break_ =>
      have := hr.2.1 (by decide)
      subst this
      simp only [Ana.stmt] at hx
      cases loop with
      | false => simp [AM.fail_ok] at hx
      | true =>
        simp only [if_true, AM.pure_ok] at hx
        obtain ⟨rfl, rfl⟩ := hx
        exact ⟨h, .refl _ _, .break_, by simp [DoneS], by simp [declsS]⟩
    | continue_ =>
      have := hr.2.1 (by decide)
      subst this
      simp only [Ana.stmt] at hx
      cases loop with
      | false => simp [AM.fail_ok] at hx
      | true =>
        simp only [if_true, AM.pure_ok] at hx
        obtain ⟨rfl, rfl⟩ := hx
        exact ⟨h, .refl _ _, .continue_, by simp [DoneS], by simp [declsS]⟩
    | return_ =>
      cases e with
      | none =>
        simp only [Ana.stmt, AM.ite_fail_ok, AM.pure_ok] at hx
        obtain ⟨hv, rfl, rfl⟩ := hx
        exact ⟨h, .refl _ _, .returnVoid (by simpa using hv), by simp [DoneS], by simp [declsS]⟩
      | some e =>
        simp only [Ana.stmt, AM.bind_ok, AM.value_ok, AM.ite_fail_ok, AM.pure_ok] at hx
        obtain ⟨e1, s1, h1, v, _, ⟨hv, rfl⟩, hc, w, _, hf, rfl, rfl⟩ := hx
        obtain ⟨hf', rfl⟩ := AM.foldResult_ok hf
        have a := expr_raw_ok haf e h (hr.2.2 e rfl) (by simpa [refsS, refsO] using hp.mode) h1
        refine ⟨a.inv, a.ext.nil, ?_, ?_, by simp [declsS]⟩
        · simp only [AStmt.erase]
          exact .return_ (a.typed rfl (by simpa [refsS, refsO] using hp.params) (by simp [hv]))
            (by rw [AExpr.erase_cv]; exact hv) (by simpa using hc) hf'
        · simp only [DoneS, Option.mem_some_iff]
          rintro x rfl
          exact a.done
  | .assign k cv name ref e, s, s', level, ret, loop, t', h, hr, hp, hx => by
    simp only [RawS] at hr
    cases ref with
    | none => simp [Ana.stmt, AM.throws_ok] at hx
    | some r =>
      cases r with
      | builtin f => simp [Ana.stmt, AM.throws_ok] at hx
      | param p => simp [Ana.stmt, AM.fail_ok] at hx
      | node j =>
        simp only [Ana.stmt, AM.bind_ok, AM.read_ok] at hx
        obtain ⟨_, _, ⟨rfl, rfl⟩, hx⟩ := hx
        cases hfj : s.fns j with
        | some f => simp [hfj, AM.fail_ok] at hx
        | none =>
          simp only [hfj] at hx
          cases hd : s.decl j with
          | none => simp [hd, AM.throws_ok] at hx
          | some d =>
            obtain ⟨kd, o⟩ := d
            cases kd with
            | const_ => simp [hd, AM.fail_ok] at hx
            | param => simp [hd, AM.throws_ok] at hx
            | width => simp [hd, AM.throws_ok] at hx
            | let_ =>
              simp only [hd, AM.bind_ok, AM.value_ok, AM.read_ok, AM.ite_fail_ok, AM.pure_ok] at hx
              obtain ⟨e1, s1, h1, v, _, ⟨hv, rfl⟩, _, _, ⟨rfl, rfl⟩, d, _, ⟨hd1, rfl⟩, dv, _, ⟨hdv, rfl⟩, hc,
                w, _, hf, rfl, rfl⟩ := hx
              obtain ⟨hf', rfl⟩ := AM.foldResult_ok hf
              have hsub : ∀ r ∈ refsE e, r ∈ refsS (.assign k cv name (some (.node j)) e) := fun r hr => by
                simp [refsS, hr]
              have a := expr_raw_ok haf e h hr.2 (hp.mode.sub hsub) h1
              obtain ⟨d', hd', hk'⟩ := a.ext.declKind j _ hd
              rw [hd1] at hd'
              cases hd'
              obtain ⟨kd, cv1⟩ := d
              simp only at hk' hdv
              subst hk' hdv
              refine ⟨a.inv, a.ext.nil, ?_, a.done, by simp [declsS]⟩
              simp only [AStmt.erase]
              exact .assign (t := dv.type) (by simp [ctxOf, hd1, declConst])
                (by simp [ctxOf, hd1, declVar]) (a.typed rfl (hp.params.sub hsub) (by simp [hv]))
                (by rw [AExpr.erase_cv]; exact hv) (by simpa using hc) hf'
  | .block k cv ss, s, s', level, ret, loop, t', h, hr, hp, hx => by
    simp only [RawS] at hr
    simp only [Ana.stmt, AM.bind_ok, AM.pure_ok] at hx
    obtain ⟨ss1, s1, h1, rfl, rfl⟩ := hx
    have a := stmts_raw_ok ss h hr.2 (by simpa [refsS, declsS] using hp) h1
    refine ⟨a.inv, by simpa [declsS] using a.ext, ?_, ⟨rfl, a.done⟩, by simp [declsS, a.decls]⟩
    simp only [AStmt.erase]
    exact .block a.typed
  | .call e, s, s', level, ret, loop, t', h, hr, hp, hx => by
    simp only [RawS] at hr
    cases e <;> simp only [RawCall] at hr
    rename_i k cv st name ref args
    obtain ⟨rfl, rfl, hr⟩ := hr
    simp only [Ana.stmt, AM.bind_ok, AM.pure_ok] at hx
    obtain ⟨e1, s1, h1, rfl, rfl⟩ := hx
    obtain ⟨cv', ref', args', rfl, h1'⟩ := call_stmt h1
    have a := expr_raw_ok haf _ h (by simp only [RawE]; exact ⟨trivial, trivial, hr⟩)
      (by simpa [refsS, refsE] using hp.mode) h1'
    have hsome : (AExpr.call k cv' false name ref' args').cv.isSome := by
      simp only [AExpr.cv]
      clear a hp
      cases ref with
      | none => simp [Ana.expr, AM.throws_ok] at h1
      | some r =>
        cases r with
        | param p => simp [Ana.expr, AM.bind_ok, AM.ub_ok] at h1
        | builtin f =>
          simp only [Ana.expr, AM.bind_ok, AM.pure_ok] at h1
          obtain ⟨_, _, _, _, _, _, _, _, _, _, _, _, he, _⟩ := h1
          cases he
          rfl
        | node j0 =>
          simp only [Ana.expr, AM.bind_ok, AM.pure_ok] at h1
          obtain ⟨_, _, _, _, _, _, he, _⟩ := h1
          cases he
          rfl
    refine ⟨a.inv, a.ext.nil, ?_, by simpa [DoneS, DoneE] using a.done, by simp [declsS]⟩
    have := a.typed rfl (by simpa [refsS, refsE] using hp.params) hsome
    simp only [AStmt.erase, AExpr.erase] at this ⊢
    exact .call this

/-- Several statements that have not been analyzed before. -/
theorem stmts_raw_ok : (ss : List AStmt) → {s s' : ASt} → {level : Level} → {ret : CType} →
    {loop : Bool} → {ss' : List AStmt} → Inv N s → RawSs ss → SPre level s (refsSs ss) (declsSs ss) →
    Ana.stmts n af ret level loop ss s = .ok ss' s' → SsOk N level ret loop ss s ss' s'
  | [], s, s', level, ret, loop, ss', h, _, _, hx => by
    simp only [Ana.stmts, AM.pure_ok] at hx
    obtain ⟨rfl, rfl⟩ := hx
    exact ⟨h, .refl _ _, .nil, trivial, rfl⟩
  | t :: ss, s, s', level, ret, loop, ss', h, hr, hp, hx => by
    simp only [RawSs] at hr
    simp only [Ana.stmts, AM.bind_ok, AM.pure_ok] at hx
    obtain ⟨t1, s1, h1, ss1, s2, h2, rfl, rfl⟩ := hx
    have hnd := hp.nodup
    simp only [declsSs] at hnd
    have a := stmt_raw_ok t h hr.1 (hp.sub (fun r hr => by simp [refsSs, hr]) (by simp [declsSs])) h1
    have b := stmts_raw_ok ss a.inv hr.2 ((hp.sub (fun r hr => by simp [refsSs, hr])
      (by simp [declsSs])).ext a.ext (disjoint_of_nodup hnd)) h2
    refine ⟨b.inv, (a.ext.mono ?_).trans (b.ext.mono ?_), ?_, ⟨a.done, b.done⟩,
      by simp [declsSs, a.decls, b.decls]⟩
    · intro x hx; simp only [declsSs, keysD, List.map_append]; exact List.mem_append_left _ hx
    · intro x hx; simp only [declsSs, keysD, List.map_append]; exact List.mem_append_right _ hx
    · simp only [eraseStmts]
      exact .cons (a.typed.mono (b.ext.ctx (innerOf_ne _))) b.typed

end

end

end Bms
