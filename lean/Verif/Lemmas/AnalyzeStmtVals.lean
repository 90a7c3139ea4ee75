import Verif.Lemmas.AnalyzeVals

/-!
# Analysis of statements: values of constants and widths
-/

namespace Bms

open Spec

/-- The value of a Boolean expression that is true. -/
theorem asBool_tt {v : Value} (hv : VOk v) (ht : ¬ v.type ≠ .bool) {b : Bool}
    (hb : v.asBool (ε := AErr) = .ok b) (hbt : ¬ b = false) : v = Value.known CVal.tt := by
  obtain ⟨t, o⟩ := v
  simp only [ne_eq, not_not] at ht
  subst ht
  cases o with
  | none => simp [Value.asBool] at hb
  | some x =>
    simp only [Value.asBool, if_true, Outcome.ok.injEq] at hb
    have h1 : x ≠ 0 := by
      intro e
      subst e
      simp at hb
      exact hbt (by simp [← hb])
    have h2 := (hv.2 x rfl).2
    have : x = 1 := by
      simp only [InType] at h2
      rcases h2 with h2 | h2
      · exact absurd h2 h1
      · exact h2
    subst this
    rfl

theorem finally_true {s : ASt} : Finally s fun _ => True := fun _ _ _ => trivial

section

variable {N n : Nat} {af : Key → Level → AM Unit} (haf : AfOk N af)

include haf

/-- A constant expression analyzed where the invariant holds. -/
theorem expr_vals_const {e e' : AExpr} {s s' : ASt} (h : Inv N s) (hr : RawE e)
    (hx : Ana.expr n af e .forConst .constant s = .ok e' s') : EVal .constant e' s' :=
  expr_vals haf e (.inl ⟨h, .inl rfl⟩) hr hx

theorem declaredType_vals {s s' : ASt} {ty ty' : AType} {t : CType} (h : Inv N s) (hr : RawT ty)
    (hx : Ana.declaredType n af ty s = .ok (ty', t) s') : Finally s' fun P => WidthsT P ty' := by
  simp only [Ana.declaredType, AM.bind_ok, AM.value_ok, AM.pure_ok, Prod.mk.injEq] at hx
  obtain ⟨ty1, s1, h1, v, _, ⟨hv, rfl⟩, ⟨rfl, rfl⟩, rfl⟩ := hx
  exact type_vals haf ty (.inl ⟨h, .inl rfl⟩) hr h1

theorem const_vals {s s' : ASt} {k : Key} {ty ty' : Option AType} {init init' : AExpr} {v : Value}
    (h : Inv N s) (hty : ∀ t ∈ ty, RawT t) (hr : RawE init)
    (hx : Ana.const_ n af k ty init s = .ok (v, ty', init') s') :
    Finally s' fun P => (∀ t ∈ ty', WidthsT P t) ∧ WidthsE P init' ∧ ConstIs P (some v) ty' init' := by
  cases ty with
  | none =>
    simp only [Ana.const_, AM.bind_ok, AM.deref_ok, AM.assert_ok, AM.pure_ok, Prod.mk.injEq] at hx
    obtain ⟨e1, s1, h1, w, _, ⟨hw, rfl⟩, _, _, ⟨hk, rfl⟩, ⟨rfl, rfl, rfl⟩, rfl⟩ := hx
    have a := expr_vals_const haf h hr h1
    refine (a.widths.and (a.sound rfl _ hw)).imp fun P h => ⟨by simp, h.1, ?_⟩
    obtain ⟨t, o⟩ := w
    cases o with
    | none => exact absurd hk (by simp [Value.isKnown])
    | some x => exact ⟨⟨t, x⟩, rfl, h.2.hasValue rfl⟩
  | some ty =>
    simp only [Ana.const_, AM.bind_ok] at hx
    obtain ⟨⟨ty1, t⟩, s1, h1, hx⟩ := hx
    simp only [AM.bind_ok, AM.deref_ok, AM.ite_fail_ok, AM.lift_ok, AM.pure_ok, Prod.mk.injEq] at hx
    obtain ⟨e1, s2, h2, u, _, ⟨hu, rfl⟩, _, w, _, ⟨hw, rfl⟩, ⟨rfl, rfl, rfl⟩, rfl⟩ := hx
    obtain ⟨b1, b2, b3⟩ := declaredType_ok haf h (hty ty rfl) h1
    have a := expr_vals_const haf b1 hr h2
    have ae := expr_raw_ok haf init b1 hr (.inl rfl) h2
    have b := (declaredType_vals haf h (hty ty rfl) h1).grow ae.ext.grows
    refine (b.and (a.widths.and (a.sound rfl _ hu))).imp fun P h => ⟨by simpa using h.1, h.2.1, ?_⟩
    refine ⟨w, rfl, ?_, fun x hx => ?_⟩
    · rw [b3.typeOf]; exact (valueConvertTo_known hw).1
    · obtain ⟨y, hy, hc⟩ := evalConversionV_known hw hx
      rw [b3.typeOf]
      rw [(valueConvertTo_known hw).1] at hc
      exact ⟨_, h.2.2.hasValue hy, hc⟩

theorem staticAssert_vals {s s' : ASt} {k : Key} {e e' : AExpr} {v : Value} (h : Inv N s) (hr : RawE e)
    (hx : Ana.staticAssert n af k e s = .ok (v, e') s') :
    Finally s' fun P => WidthsE P e' ∧ HasValue P e' CVal.tt := by
  simp only [Ana.staticAssert, AM.bind_ok, AM.assert_ok, AM.deref_ok, AM.ite_fail_ok, AM.get_ok,
    AM.pure_ok, Prod.mk.injEq] at hx
  obtain ⟨e1, s1, h1, _, _, ⟨_, rfl⟩, w, _, ⟨hw, rfl⟩, hty, b, _, ⟨hb, rfl⟩, hbt, ⟨rfl, rfl⟩, rfl⟩ := hx
  have a := expr_vals_const haf h hr h1
  refine (a.widths.and (a.sound rfl _ hw)).imp fun P h => ⟨h.1, ?_⟩
  have hw' := asBool_tt (a.vok _ hw) hty hb (by simpa using hbt)
  subst hw'
  exact h.2.hasValue rfl

theorem condition_vals {s s' : ASt} {level : Level} {k : Key} {c c' : AExpr} (h : Inv N s) (hr : RawE c)
    (hm : Mode level .normal s (refsE c)) (hx : Ana.condition n af k c level s = .ok c' s') :
    Finally s' fun P => WidthsE P c' := by
  simp only [Ana.condition, AM.bind_ok, AM.value_ok, AM.ite_fail_ok, AM.pure_ok] at hx
  obtain ⟨e1, s1, h1, v, _, ⟨hv, rfl⟩, hb, rfl, rfl⟩ := hx
  exact (expr_vals haf c (.inl ⟨h, hm⟩) hr h1).widths

theorem let_vals {s s' : ASt} {level : Level} {k : Key} {ty ty' : Option AType}
    {init init' : Option AExpr} {t : CType} (h : Inv N s) (hty : ∀ t ∈ ty, RawT t)
    (hr : ∀ e ∈ init, RawE e) (hm : Mode level .normal s (refsO refsE init))
    (hx : Ana.let_ n af k ty init level s = .ok (t, ty', init') s') :
    Finally s' fun P => (∀ t ∈ ty', WidthsT P t) ∧ ∀ e ∈ init', WidthsE P e := by
  cases ty with
  | none =>
    cases init with
    | none => simp [Ana.let_, AM.throws_ok] at hx
    | some e =>
      simp only [Ana.let_, AM.bind_ok, AM.value_ok, AM.pure_ok, Prod.mk.injEq] at hx
      obtain ⟨e1, s1, h1, v, _, ⟨hv, rfl⟩, ⟨rfl, rfl, rfl⟩, rfl⟩ := hx
      exact (expr_vals haf e (.inl ⟨h, hm⟩) (hr e rfl) h1).widths.imp fun P h => ⟨by simp, by simpa using h⟩
  | some ty =>
    cases init with
    | none =>
      simp only [Ana.let_, AM.bind_ok] at hx
      obtain ⟨⟨ty1, t1⟩, s1, h1, hx⟩ := hx
      simp only [AM.pure_ok, Prod.mk.injEq] at hx
      obtain ⟨⟨rfl, rfl, rfl⟩, rfl⟩ := hx
      exact (declaredType_vals haf h (hty ty rfl) h1).imp fun P h => ⟨by simpa using h, by simp⟩
    | some e =>
      simp only [Ana.let_, AM.bind_ok] at hx
      obtain ⟨⟨ty1, t1⟩, s1, h1, hx⟩ := hx
      simp only [AM.bind_ok, AM.deref_ok, AM.ite_fail_ok, AM.pure_ok, Prod.mk.injEq] at hx
      obtain ⟨e1, s2, h2, v, _, ⟨hv, rfl⟩, hc, ⟨rfl, rfl, rfl⟩, rfl⟩ := hx
      obtain ⟨b1, b2, b3⟩ := declaredType_ok haf h (hty ty rfl) h1
      have a := expr_raw_ok haf e b1 (hr e rfl) (hm.ext b2) h2
      have b := (declaredType_vals haf h (hty ty rfl) h1).grow a.ext.grows
      have c := expr_vals haf e (.inl ⟨b1, hm.ext b2⟩) (hr e rfl) h2
      exact (b.and c.widths).imp fun P h => ⟨by simpa using h.1, by simpa using h.2⟩

mutual

/-- Statements that have not been analyzed before. -/
theorem stmt_vals : (t : AStmt) → {s s' : ASt} → {level : Level} → {ret : CType} → {loop : Bool} →
    {t' : AStmt} → Inv N s → RawS t → SPre level s (refsS t) (declsS t) →
    Ana.stmt n af ret level loop t s = .ok t' s' → Finally s' fun P => ValuesS P t'
  | .const_ k cv name ty init, s, s', level, ret, loop, t', h, hr, hp, hx => by
    simp only [RawS] at hr
    obtain ⟨rfl, hty, hr⟩ := hr
    simp only [Ana.stmt, AM.bind_ok] at hx
    obtain ⟨⟨v, ty1, init1⟩, s1, h1, hx⟩ := hx
    simp only [AM.bind_ok, AM.modify_ok, AM.pure_ok] at hx
    obtain ⟨_, s2, rfl, rfl, rfl⟩ := hx
    obtain ⟨a1, a2, a3⟩ := const_ok haf h hty hr h1
    have hp1 := hp.ext a2 (by simp)
    obtain ⟨kk, f, p1, p2, p3, p4⟩ := hp1.top
    obtain ⟨b1, b2⟩ := setDecl_ok a1 p1 p2 p3 (p4 (k, .const_) (by simp [declsS]))
      (hp1.unset (k, .const_) (by simp [declsS])) (v := v) a3
    exact (const_vals haf h hty hr h1).grow b2.grows
  | .let_ k cv name ty init, s, s', level, ret, loop, t', h, hr, hp, hx => by
    simp only [RawS] at hr
    obtain ⟨rfl, hty, hr⟩ := hr
    simp only [Ana.stmt, AM.bind_ok] at hx
    obtain ⟨⟨t, ty1, init1⟩, s1, h1, hx⟩ := hx
    simp only [AM.bind_ok, AM.modify_ok, AM.pure_ok] at hx
    obtain ⟨_, s2, rfl, rfl, rfl⟩ := hx
    have hsub : ∀ r ∈ refsO refsE init, r ∈ refsS (.let_ k none name ty init) := fun r hr => by
      simp [refsS, hr]
    obtain ⟨a1, a2, a3, a4, a5⟩ := let_ok haf h hty hr (hp.mode.sub hsub) (hp.params.sub hsub) h1
    have hp1 := hp.ext a2 (by simp)
    obtain ⟨kk, f, p1, p2, p3, p4⟩ := hp1.top
    obtain ⟨b1, b2⟩ := setDecl_ok a1 p1 p2 p3 (p4 (k, .let_) (by simp [declsS]))
      (hp1.unset (k, .let_) (by simp [declsS])) (v := Value.unknownOf t) ⟨rfl, a3⟩
    exact (let_vals haf h hty hr (hp.mode.sub hsub) h1).grow b2.grows
  | .staticAssert k cv e, s, s', level, ret, loop, t', h, hr, hp, hx => by
    simp only [RawS] at hr
    obtain ⟨rfl, hr⟩ := hr
    simp only [Ana.stmt, AM.bind_ok] at hx
    obtain ⟨⟨v, e1⟩, s1, h1, hx⟩ := hx
    simp only [AM.pure_ok] at hx
    obtain ⟨rfl, rfl⟩ := hx
    exact staticAssert_vals haf h hr h1
  | .ifThen k cv c t, s, s', level, ret, loop, t', h, hr, hp, hx => by
    simp only [RawS] at hr
    simp only [Ana.stmt, AM.bind_ok, AM.pure_ok] at hx
    obtain ⟨c1, s1, h1, t1, s2, h2, rfl, rfl⟩ := hx
    have hsub : ∀ r ∈ refsE c, r ∈ refsS (.ifThen k cv c t) := fun r hr => by simp [refsS, hr]
    obtain ⟨a1, a2, -⟩ := condition_ok haf h hr.2.1 (hp.mode.sub hsub) (hp.params.sub hsub) h1
    have hp1 := (hp.sub (refs' := refsS t) (ds' := declsS t) (fun r hr => by simp [refsS, hr])
      (by simp [declsS])).ext a2 (by simp)
    have b := stmt_raw_ok haf t a1 hr.2.2 hp1 h2
    exact ((condition_vals haf h hr.2.1 (hp.mode.sub hsub) h1).grow b.ext.grows).and
      (stmt_vals t a1 hr.2.2 hp1 h2)
  | .ifElse k cv c t e, s, s', level, ret, loop, t', h, hr, hp, hx => by
    simp only [RawS] at hr
    simp only [Ana.stmt, AM.bind_ok, AM.pure_ok] at hx
    obtain ⟨c1, s1, h1, t1, s2, h2, e1, s3, h3, rfl, rfl⟩ := hx
    have hsub : ∀ r ∈ refsE c, r ∈ refsS (.ifElse k cv c t e) := fun r hr => by simp [refsS, hr]
    obtain ⟨a1, a2, -⟩ := condition_ok haf h hr.2.1 (hp.mode.sub hsub) (hp.params.sub hsub) h1
    have hp1 := (hp.sub (refs' := refsS t) (ds' := declsS t) (fun r hr => by simp [refsS, hr])
      (by simp [declsS])).ext a2 (by simp)
    have b := stmt_raw_ok haf t a1 hr.2.2.1 hp1 h2
    have hnd := hp.nodup
    simp only [declsS] at hnd
    have hp2 := (hp.sub (refs' := refsS e) (ds' := declsS e) (fun r hr => by simp [refsS, hr])
      (by simp [declsS])).ext ((a2.nil).trans b.ext) (disjoint_of_nodup hnd)
    have d := stmt_raw_ok haf e b.inv hr.2.2.2 hp2 h3
    exact ((condition_vals haf h hr.2.1 (hp.mode.sub hsub) h1).grow (b.ext.grows.trans d.ext.grows)).and
      (((stmt_vals t a1 hr.2.2.1 hp1 h2).grow d.ext.grows).and (stmt_vals e b.inv hr.2.2.2 hp2 h3))
  | .while_ k cv c t, s, s', level, ret, loop, t', h, hr, hp, hx => by
    simp only [RawS] at hr
    simp only [Ana.stmt, AM.bind_ok, AM.pure_ok] at hx
    obtain ⟨c1, s1, h1, t1, s2, h2, rfl, rfl⟩ := hx
    have hsub : ∀ r ∈ refsE c, r ∈ refsS (.while_ k cv c t) := fun r hr => by simp [refsS, hr]
    obtain ⟨a1, a2, -⟩ := condition_ok haf h hr.2.1 (hp.mode.sub hsub) (hp.params.sub hsub) h1
    have hp1 := (hp.sub (refs' := refsS t) (ds' := declsS t) (fun r hr => by simp [refsS, hr])
      (by simp [declsS])).ext a2 (by simp)
    have b := stmt_raw_ok haf t a1 hr.2.2 hp1 h2
    exact ((condition_vals haf h hr.2.1 (hp.mode.sub hsub) h1).grow b.ext.grows).and
      (stmt_vals t a1 hr.2.2 hp1 h2)
  | .control k cv c e, s, s', level, ret, loop, t', h, hr, hp, hx => by
    simp only [RawS] at hr
    cases c with
    | break_ =>
      have := hr.2.1 (by decide)
      subst this
      simp only [Ana.stmt] at hx
      cases loop with
      | false => simp [AM.fail_ok] at hx
      | true =>
        simp only [if_true, AM.pure_ok] at hx
        obtain ⟨rfl, rfl⟩ := hx
        exact fun _ _ _ => by simp [ValuesS]
    | continue_ =>
      have := hr.2.1 (by decide)
      subst this
      simp only [Ana.stmt] at hx
      cases loop with
      | false => simp [AM.fail_ok] at hx
      | true =>
        simp only [if_true, AM.pure_ok] at hx
        obtain ⟨rfl, rfl⟩ := hx
        exact fun _ _ _ => by simp [ValuesS]
    | return_ =>
      cases e with
      | none =>
        simp only [Ana.stmt, AM.ite_fail_ok, AM.pure_ok] at hx
        obtain ⟨hv, rfl, rfl⟩ := hx
        exact fun _ _ _ => by simp [ValuesS]
      | some e =>
        simp only [Ana.stmt, AM.bind_ok, AM.value_ok, AM.ite_fail_ok, AM.pure_ok] at hx
        obtain ⟨e1, s1, h1, v, _, ⟨hv, rfl⟩, hc, w, _, hf, rfl, rfl⟩ := hx
        obtain ⟨hf', rfl⟩ := AM.foldResult_ok hf
        have a := expr_vals haf e (.inl ⟨h, by simpa [refsS, refsO] using hp.mode⟩) (hr.2.2 e rfl) h1
        exact a.widths.imp fun P h => by simpa [ValuesS] using h
  | .assign k cv name ref e, s, s', level, ret, loop, t', h, hr, hp, hx => by
    simp only [RawS] at hr
    cases ref with
    | none => simp [Ana.stmt, AM.throws_ok] at hx
    | some r =>
      cases r with
      | builtin f => simp [Ana.stmt, AM.throws_ok] at hx
      | param p => simp [Ana.stmt, AM.fail_ok] at hx
      | node j =>
        simp only [Ana.stmt, AM.bind_ok, AM.read_ok] at hx
        obtain ⟨_, _, ⟨rfl, rfl⟩, hx⟩ := hx
        cases hfj : s.fns j with
        | some f => simp [hfj, AM.fail_ok] at hx
        | none =>
          simp only [hfj] at hx
          cases hd : s.decl j with
          | none => simp [hd, AM.throws_ok] at hx
          | some d =>
            obtain ⟨kd, o⟩ := d
            cases kd with
            | const_ => simp [hd, AM.fail_ok] at hx
            | param => simp [hd, AM.throws_ok] at hx
            | width => simp [hd, AM.throws_ok] at hx
            | let_ =>
              simp only [hd, AM.bind_ok, AM.value_ok, AM.read_ok, AM.ite_fail_ok, AM.pure_ok] at hx
              obtain ⟨e1, s1, h1, v, _, ⟨hv, rfl⟩, _, _, ⟨rfl, rfl⟩, d, _, ⟨hd1, rfl⟩, dv, _, ⟨hdv, rfl⟩, hc,
                w, _, hf, rfl, rfl⟩ := hx
              obtain ⟨hf', rfl⟩ := AM.foldResult_ok hf
              have hsub : ∀ r ∈ refsE e, r ∈ refsS (.assign k cv name (some (.node j)) e) := fun r hr => by
                simp [refsS, hr]
              exact (expr_vals haf e (.inl ⟨h, hp.mode.sub hsub⟩) hr.2 h1).widths
  | .block k cv ss, s, s', level, ret, loop, t', h, hr, hp, hx => by
    simp only [RawS] at hr
    simp only [Ana.stmt, AM.bind_ok, AM.pure_ok] at hx
    obtain ⟨ss1, s1, h1, rfl, rfl⟩ := hx
    exact stmts_vals ss h hr.2 (by simpa [refsS, declsS] using hp) h1
  | .call e, s, s', level, ret, loop, t', h, hr, hp, hx => by
    simp only [RawS] at hr
    cases e <;> simp only [RawCall] at hr
    rename_i k cv st name ref args
    obtain ⟨rfl, rfl, hr⟩ := hr
    simp only [Ana.stmt, AM.bind_ok, AM.pure_ok] at hx
    obtain ⟨e1, s1, h1, rfl, rfl⟩ := hx
    obtain ⟨cv', ref', args', rfl, h1'⟩ := call_stmt h1
    exact (expr_vals haf _ (.inl ⟨h, by simpa [refsS, refsE] using hp.mode⟩)
      (by simp only [RawE]; exact ⟨trivial, trivial, hr⟩) h1').widths

/-- Several statements that have not been analyzed before. -/
theorem stmts_vals : (ss : List AStmt) → {s s' : ASt} → {level : Level} → {ret : CType} →
    {loop : Bool} → {ss' : List AStmt} → Inv N s → RawSs ss → SPre level s (refsSs ss) (declsSs ss) →
    Ana.stmts n af ret level loop ss s = .ok ss' s' → Finally s' fun P => ValuesSs P ss'
  | [], s, s', level, ret, loop, ss', h, _, _, hx => by
    simp only [Ana.stmts, AM.pure_ok] at hx
    obtain ⟨rfl, rfl⟩ := hx
    exact finally_true
  | t :: ss, s, s', level, ret, loop, ss', h, hr, hp, hx => by
    simp only [RawSs] at hr
    simp only [Ana.stmts, AM.bind_ok, AM.pure_ok] at hx
    obtain ⟨t1, s1, h1, ss1, s2, h2, rfl, rfl⟩ := hx
    have hnd := hp.nodup
    simp only [declsSs] at hnd
    have hp1 : SPre level s (refsS t) (declsS t) :=
      hp.sub (fun r hr => by simp [refsSs, hr]) (by simp [declsSs])
    have a := stmt_raw_ok haf t h hr.1 hp1 h1
    have hp2 := (hp.sub (refs' := refsSs ss) (ds' := declsSs ss) (fun r hr => by simp [refsSs, hr])
      (by simp [declsSs])).ext a.ext (disjoint_of_nodup hnd)
    have b := stmts_raw_ok haf ss a.inv hr.2 hp2 h2
    exact ((stmt_vals t h hr.1 hp1 h1).grow b.ext.grows).and (stmts_vals ss a.inv hr.2 hp2 h2)

end

end

end Bms
