import Verif.Lemmas.AnalyzeInst

/-!
# Analysis of expressions
-/

namespace Bms

open Spec

/-- What analysis of a called function has to do. -/
def AfOk (N : Nat) (af : Key → Level → AM Unit) : Prop :=
  ∀ k lvl s s', Inv N s → (lvl = .shallow ∨ lvl = .forConst) →
    (∃ f, s.fns k = some f ∧ f.generic = false ∧ (k ∈ s.stack → lvl.rank ≤ f.level.rank)) →
    af k lvl s = .ok () s' → Inv N s' ∧ Ext [] s s'

/-- In which situations expressions are analyzed: for constant evaluation, or as part of the body of
the only function that is being analyzed. -/
def Mode (level : Level) (ctx : ECtx) (s : ASt) (refs : List Lookup) : Prop :=
  level = .forConst ∨ level = .full ∧ ctx = .normal ∧ ∃ k f, s.stack = [k] ∧ s.fns k = some f ∧
    f.level ≠ .unanalyzed ∧ f.level.rank < 2 ∧ ∀ r ∈ refs, r ∈ refsSs f.body

/-- The level for called functions. -/
def innerOf (level : Level) : Level := if level = .forConst then .forConst else .shallow

theorem innerOf_ne (level : Level) : innerOf level ≠ .unanalyzed := by
  unfold innerOf; split <;> decide

theorem Mode.ext {level : Level} {ctx : ECtx} {s s' : ASt} {refs : List Lookup} {D : List Key}
    (h : Mode level ctx s refs) (he : Ext D s s') : Mode level ctx s' refs := by
  rcases h with h | ⟨h1, h2, k, f, h3, h4, h5⟩
  · exact .inl h
  · exact .inr ⟨h1, h2, k, f, he.stack.trans h3, (he.onStack k (by simp [h3])).trans h4, h5⟩

theorem Mode.sub {level : Level} {ctx : ECtx} {s : ASt} {refs refs' : List Lookup}
    (h : Mode level ctx s refs) (hr : ∀ r ∈ refs', r ∈ refs) : Mode level ctx s refs' := by
  rcases h with h | ⟨h1, h2, k, f, h3, h4, h5, h6, h7⟩
  · exact .inl h
  · exact .inr ⟨h1, h2, k, f, h3, h4, h5, h6, fun r hm => h7 r (hr r hm)⟩

theorem Mode.constant {level : Level} {s : ASt} {refs refs' : List Lookup}
    (h : Mode level .constant s refs) (ctx : ECtx) : Mode level ctx s refs' := by
  rcases h with h | ⟨_, h2, _⟩
  · exact .inl h
  · cases h2

/-- All parameters that are referred to exist. -/
def ParamRefs (s : ASt) (refs : List Lookup) : Prop := ∀ p, .param p ∈ refs → IsParam s p

theorem IsParam.ext {D : List Key} {s s' : ASt} (he : Ext D s s') {x : Key} (h : IsParam s x) :
    IsParam s' x := by
  obtain ⟨cv, hx⟩ := h
  obtain ⟨⟨kd, cv'⟩, h1, h2⟩ := he.declKind x _ hx
  simp only at h2
  subst h2
  exact ⟨cv', h1⟩

theorem ParamRefs.ext {D : List Key} {s s' : ASt} (he : Ext D s s') {refs : List Lookup}
    (h : ParamRefs s refs) : ParamRefs s' refs := fun p hp => (h p hp).ext he

theorem ParamRefs.sub {s : ASt} {refs refs' : List Lookup} (h : ParamRefs s refs)
    (hr : ∀ r ∈ refs', r ∈ refs) : ParamRefs s refs' := fun p hp => h p (hr _ hp)

/-- What analysis of an expression establishes. -/
structure EOk (N : Nat) (level : Level) (ctx : ECtx) (e : AExpr) (s : ASt) (e' : AExpr) (s' : ASt) :
    Prop where
  inv : Inv N s'
  ext : Ext [] s s'
  done : DoneE e'
  vok : ∀ v, e'.cv = some v → VOk v
  typed : ctx = .normal → ParamRefs s (refsE e) → e'.cv.isSome →
    Typed (ctxOf (innerOf level) s') e'.erase

/-- What analysis of arguments establishes. -/
structure EsOk (N : Nat) (level : Level) (ctx : ECtx) (es : List AExpr) (s : ASt) (es' : List AExpr)
    (s' : ASt) : Prop where
  inv : Inv N s'
  ext : Ext [] s s'
  done : DoneEs es'
  vok : ∀ a ∈ es', ∃ v, a.cv = some v ∧ VOk v
  typed : ctx = .normal → ParamRefs s (refsEs es) →
    ∀ a ∈ es', Typed (ctxOf (innerOf level) s') a.erase

/-- What analysis of a type establishes. -/
structure TOk (N : Nat) (s : ASt) (ty' : AType) (s' : ASt) : Prop where
  inv : Inv N s'
  ext : Ext [] s s'
  sig : ∃ t, SigT ty' t

theorem Ext.ctx {D : List Key} {s s' : ASt} (h : Ext D s s') {l : Level} (hl : l ≠ .unanalyzed) :
    CtxLe (ctxOf l s) (ctxOf l s') := h.grows.ctx hl (Nat.le_refl _)

/-! ## Names -/

theorem declValue {s : ASt} {N : Nat} (h : Inv N s) {x : Key} {kd : DeclKind} {v : Value}
    (hx : s.decl x = some ⟨kd, some v⟩) : VOk v := by
  have := h.declOk _ _ hx
  cases kd <;> simp only [DeclOk] at this
  · obtain ⟨h1, h2⟩ := this
    exact ⟨h2, fun y hy => by rw [h1] at hy; cases hy⟩
  · exact this
  · obtain ⟨h1, h2⟩ := this
    exact ⟨h2, fun y hy => by rw [h1] at hy; cases hy⟩
  · exact this

theorem declUnknown {s : ASt} {N : Nat} (h : Inv N s) {x : Key} {kd : DeclKind} {v : Value}
    (hx : s.decl x = some ⟨kd, some v⟩) (hkd : kd = .let_ ∨ kd = .param) :
    v = Value.unknownOf v.type := by
  have := h.declOk _ _ hx
  obtain ⟨t, o⟩ := v
  rcases hkd with rfl | rfl <;> simp only [DeclOk] at this <;> obtain ⟨rfl, -⟩ := this <;> rfl

/-- A name that refers to a declaration with value. -/
theorem typed_node {s : ASt} {N : Nat} (h : Inv N s) {l : Level} {x : Key} {kd : DeclKind} {v : Value}
    (hx : s.decl x = some ⟨kd, some v⟩) (hkd : kd ≠ .param) :
    Typed (ctxOf l s) (.id (some v) (some (.node x))) := by
  by_cases hl : kd = .let_
  · subst hl
    rw [declUnknown h hx (.inl rfl)]
    exact .var (by simp [ctxOf, hx, declConst]) (by simp [ctxOf, hx, declVar])
  · obtain ⟨t, o⟩ := v
    cases o with
    | none =>
      refine .var (t := t) ?_ ?_
      · cases kd <;> simp [ctxOf, hx, declConst] at hkd hl ⊢
      · cases kd <;> simp [ctxOf, hx, declVar] at hkd hl ⊢
    | some y =>
      refine .const_ (v := ⟨t, y⟩) ?_
      cases kd <;> simp [ctxOf, hx, declConst] at hkd hl ⊢

theorem idValue_ok {N : Nat} {s s' : ASt} (h : Inv N s) {k : Key} {ref : Option Lookup} {ctx : ECtx}
    {cv : Option Value} (hv : Ana.idValue k ref ctx s = .ok cv s') :
    s = s' ∧ (∀ v, cv = some v → VOk v) ∧
      (ctx = .normal → ParamRefs s ref.toList → ∀ l v, cv = some v →
        Typed (ctxOf l s) (.id cv ref)) := by
  unfold Ana.idValue at hv
  cases ref with
  | none => simp [AM.throws_ok] at hv
  | some r =>
    cases r with
    | builtin f => simp [AM.throws_ok] at hv
    | param p =>
      simp only [AM.ite_fail_ok, AM.bind_ok, AM.read_ok] at hv
      obtain ⟨hc, _, _, ⟨rfl, rfl⟩, hv⟩ := hv
      cases hp : s.decl p with
      | none => simp [hp, AM.throws_ok] at hv
      | some d =>
        obtain ⟨kd, o⟩ := d
        simp only [hp, AM.pure_ok] at hv
        obtain ⟨rfl, rfl⟩ := hv
        refine ⟨rfl, fun v hv => ?_, fun _ hpr l v hv => ?_⟩
        · subst hv; exact declValue h hp
        · subst hv
          obtain ⟨cv', hcv⟩ := hpr p (by simp)
          rw [hp] at hcv
          cases hcv
          rw [declUnknown h hp (.inr rfl)]
          exact .param (by simp [ctxOf, hp, declVar])
    | node j =>
      simp only [AM.bind_ok, AM.read_ok] at hv
      obtain ⟨_, _, ⟨rfl, rfl⟩, hv⟩ := hv
      cases hfj : s.fns j with
      | some f => simp [hfj, AM.fail_ok] at hv
      | none =>
        simp only [hfj] at hv
        have key : ∀ kd v, s.decl j = some ⟨kd, some v⟩ → kd ≠ .param → cv = some v → s = s' →
            s = s' ∧ (∀ v, cv = some v → VOk v) ∧
              (ctx = .normal → ParamRefs s (some (Lookup.node j)).toList → ∀ l v, cv = some v →
                Typed (ctxOf l s) (.id cv (some (.node j)))) := by
          intro kd v hd hkd hcv hs
          subst hcv
          refine ⟨hs, fun w hw => ?_, fun _ _ l w hw => typed_node h hd hkd⟩
          cases hw
          exact declValue h hd
        cases hd : s.decl j with
        | none => simp [hd, AM.throws_ok] at hv
        | some d =>
          obtain ⟨kd, o⟩ := d
          cases kd <;> cases o <;>
            simp only [hd, AM.ite_fail_ok, AM.fail_ok, AM.throws_ok, AM.pure_ok, and_false] at hv
          · exact key _ _ hd (by decide) hv.2.1.symm hv.2.2
          · exact key _ _ hd (by decide) hv.1.symm hv.2
          · exact key _ _ hd (by decide) hv.2.1.symm hv.2.2

/-! ## Calls -/

theorem mkUint_ok {ε : Type} {x : Int} {t : CType} (h : CType.mkUint (ε := ε) x = .ok t) :
    t = .uint x.toNat ∧ 0 < x ∧ x < 128 ∧ 1 < x := by
  simp only [CType.mkUint, Outcome.bind_eq_ok, Outcome.assert] at h
  obtain ⟨_, h1, _, h2, _, h3, h⟩ := h
  have h4 : x > 1 := by
    by_cases e : x > 1
    · exact e
    · simp [e] at h2
  have h5 : x > 0 ∧ x < 128 := by
    by_cases e : x > 0 ∧ x < 128
    · exact e
    · simp [e] at h3
  simp only [Outcome.ok.injEq] at h
  exact ⟨h.symm, h5.1, h5.2, h4⟩

theorem concreteType_ok {ε : Type} {k : Key} {cv : Option Value} {c : Option Nat} {w : AExpr} {u : CType}
    (h : AType.concreteType (ε := ε) (.uint k cv c w) = .ok (some u)) : ∃ x, c = some x ∧ u = .uint x := by
  cases c with
  | none => simp [AType.concreteType] at h
  | some x =>
    refine ⟨x, rfl, ?_⟩
    simp only [AType.concreteType, Outcome.map] at h
    cases hm : CType.mkUint (ε := ε) (x : Int) with
    | ok t =>
      simp only [hm, Outcome.ok.injEq, Option.some.injEq] at h
      rw [← h, (mkUint_ok hm).1]
      simp
    | _ => simp [hm] at h

theorem SigT.concrete {ε : Type} {ty : AType} {t u : CType} (h : SigT ty t)
    (hc : ty.concreteType (ε := ε) = .ok (some u)) : u = t := by
  have := h.2.1
  unfold AType.eraseType at this
  cases ty with
  | base k cv b => simp [AType.concreteType] at hc this; rw [← hc, ← this]
  | uint k cv c w =>
    split at this
    · rename_i o ho
      subst this
      obtain ⟨x, rfl, rfl⟩ := concreteType_ok hc
      obtain ⟨y, hy, rfl⟩ := concreteType_ok ho
      cases hy
      rfl
    · cases this

theorem passArgs_ok {s s' : ASt} {k : Key} {ctx : ECtx} : ∀ {args : List AExpr} {ps : List AParam}
    {cs : List CVal}, (∀ a ∈ args, ∃ v, a.cv = some v ∧ VOk v) → (∀ p ∈ ps, ∃ t, SigT p.type t) →
    Ana.passArgs k ctx args ps s = .ok cs s' →
    s = s' ∧ (∀ c ∈ cs, WF c) ∧ (ps.length = args.length →
      List.Forall₂ (fun (a : Expr) (t : CType) =>
        ∃ v : Value, a.cv = some v ∧ v.type.isConvertibleTo t = true)
        (args.map AExpr.erase) (ps.map fun p => typeOf p.type)) := by
  intro args
  induction args with
  | nil =>
    intro ps cs _ _ h
    simp only [Ana.passArgs, AM.pure_ok] at h
    obtain ⟨rfl, rfl⟩ := h
    refine ⟨rfl, by simp, fun hl => ?_⟩
    have : ps = [] := by simpa using hl
    subst this
    exact .nil
  | cons a as ih =>
    intro ps cs ha hp h
    cases ps with
    | nil =>
      simp only [Ana.passArgs, AM.pure_ok] at h
      obtain ⟨rfl, rfl⟩ := h
      exact ⟨rfl, by simp, fun hl => by simp at hl⟩
    | cons p ps =>
      simp only [Ana.passArgs, AM.bind_ok, AM.get_ok, AM.value_ok, AM.ite_fail_ok] at h
      obtain ⟨o, _, ⟨ho, rfl⟩, t, _, ⟨rfl, rfl⟩, v, _, ⟨hv, rfl⟩, hc, h⟩ := h
      obtain ⟨t', ht⟩ := hp p (by simp)
      have := ht.concrete ho
      subst this
      have ha' : ∀ b ∈ as, ∃ v, b.cv = some v ∧ VOk v := fun b hb => ha b (List.mem_cons_of_mem _ hb)
      have hp' : ∀ q ∈ ps, ∃ t, SigT q.type t := fun q hq => hp q (List.mem_cons_of_mem _ hq)
      have hvok : VOk v := by
        obtain ⟨v', h1, h2⟩ := ha a (by simp)
        rw [hv] at h1
        cases h1
        exact h2
      have hc' : v.type.isConvertibleTo t = true := by simpa using hc
      have fin : ∀ {cs' : List CVal}, s = s' ∧ (∀ c ∈ cs', WF c) ∧ (ps.length = as.length →
          List.Forall₂ (fun (a : Expr) (t : CType) =>
            ∃ v : Value, a.cv = some v ∧ v.type.isConvertibleTo t = true)
          (as.map AExpr.erase) (ps.map fun p => typeOf p.type)) → (∀ c ∈ cs, WF c ∨ c ∈ cs') →
          s = s' ∧ (∀ c ∈ cs, WF c) ∧ ((p :: ps).length = (a :: as).length →
          List.Forall₂ (fun (a : Expr) (t : CType) =>
            ∃ v : Value, a.cv = some v ∧ v.type.isConvertibleTo t = true)
          ((a :: as).map AExpr.erase) ((p :: ps).map fun p => typeOf p.type)) := by
        rintro cs' ⟨h1, h2, h3⟩ h4
        refine ⟨h1, fun c hc => (h4 c hc).elim _root_.id (h2 c), fun hl => ?_⟩
        refine .cons ⟨v, by rw [AExpr.erase_cv]; exact hv, by simp only [ht.typeOf]; exact hc'⟩ (h3 ?_)
        simpa using hl
      cases hev : evalConversionV v t with
      | ok w =>
        simp only [hev] at h
        split at h
        · simp only [AM.bind_ok, AM.get_ok, AM.pure_ok] at h
          obtain ⟨c, _, ⟨hcc, rfl⟩, cs', s1, h1, rfl, rfl⟩ := h
          refine fin (ih ha' hp' h1) fun c' hc' => ?_
          rcases List.mem_cons.1 hc' with rfl | hc'
          · left
            have hw : VOk w := hvok.conversion ht.2.2 (.inl hev)
            unfold Value.concrete at hcc
            cases hx : w.val with
            | none => simp [hx] at hcc
            | some x =>
              simp only [hx, Outcome.ok.injEq] at hcc
              rw [← hcc]
              exact hw.2 x hx
          · exact .inr hc'
        · exact fin (ih ha' hp' h) fun c hc => .inr hc
      | err e =>
        simp only [hev, AM.ite_fail_ok] at h
        exact fin (ih ha' hp' h.2) fun c hc => .inr hc
      | throws => simp [hev, AM.throws_ok] at h
      | ub => simp [hev, AM.ub_ok] at h

/-- A call. -/
theorem callFunction_ok {N n : Nat} {af : Key → Level → AM Unit} (haf : AfOk N af) {s s' : ASt}
    (h : Inv N s) {k j0 j : Key} {args : List AExpr} {level : Level} {ctx : ECtx} {w : Value}
    (hargs : ∀ a ∈ args, ∃ v, a.cv = some v ∧ VOk v) (hm : Mode level ctx s [.node j0])
    (hc : Ana.callFunction n af k j0 args level ctx s = .ok (j, w) s') :
    Inv N s' ∧ Ext [] s s' ∧ VOk w ∧ (ctx = .normal → ∃ ts t,
      (ctxOf (innerOf level) s').fns j = some (ts, t) ∧ w = Value.unknownOf t ∧
      List.Forall₂ (fun (a : Expr) (t : CType) =>
        ∃ v : Value, a.cv = some v ∧ v.type.isConvertibleTo t = true) (args.map AExpr.erase) ts) ∧
      (ctx = .constant → ∃ f a cs v, s'.fns j = some f ∧ f.generic = false ∧ f.level = .forConst ∧
        f.params.length = args.length ∧ f.address = some a ∧
        Ana.passArgs k ctx args f.params s' = .ok cs s' ∧
        constantCall { Vm.initial with instructions := s'.code } a cs n = some (.ok v) ∧
        w = Value.known v) := by
  simp only [Ana.callFunction, AM.bind_ok, AM.read_ok] at hc
  obtain ⟨_, _, ⟨rfl, rfl⟩, hc⟩ := hc
  cases hf0 : s.fns j0 with
  | none => simp [hf0, AM.fail_ok] at hc
  | some f0 =>
    simp only [hf0, AM.ite_fail_ok, AM.bind_ok, AM.read_ok, AM.value_ok, AM.assert_ok, AM.deref_ok] at hc
    obtain ⟨hlen, j1, s1, hcal, _, _, ⟨rfl, rfl⟩, f1, _, ⟨hf1, rfl⟩, _, _, ⟨hgen1, rfl⟩, hc⟩ := hc
    obtain ⟨hi1, he1, ⟨g, hg1, hg2, hg3⟩, hplain, hinst⟩ := callee_ok h hf0
      (fun a ha v hv => by
        obtain ⟨v', h1, h2⟩ := hargs a ha
        rw [hv] at h1; cases h1; exact h2) hcal
    rw [hf1] at hg1
    cases hg1
    generalize hin : (if ctx = .constant ∨ level = .forConst then Level.forConst else .shallow)
      = inner at hc
    obtain ⟨hstk, _, s2, haf', _, _, ⟨rfl, rfl⟩, f2, _, ⟨hf2, rfl⟩, _, _, ⟨hlev, rfl⟩, r, _, ⟨hr, rfl⟩,
      hc⟩ := hc
    have hm1 := hm.ext he1
    have hinner : inner = .shallow ∨ inner = .forConst := by
      rw [← hin]; split <;> simp
    have hinner' : ctx = .normal → inner = innerOf level := by
      intro e
      rw [← hin, innerOf, e]
      simp
    -- if the called function is being analyzed
    have hself : j1 ∈ s1.stack → ∃ k f, k = j1 ∧ s1.stack = [k] ∧ s1.fns k = some f ∧
        f.level ≠ .unanalyzed ∧ f.requires_ = none ∧ inner = .shallow := by
      intro hon
      have hne : inner ≠ .forConst := fun e => hstk ⟨e, hon⟩
      rcases hm1 with hl | ⟨hl, hctx, kk, ff, hs, hff, hfl, hfr, hrefs⟩
      · exfalso
        apply hne
        rw [← hin, hl]
        simp
      · have hkk : kk = j1 := by
          rw [hs] at hon
          exact (List.mem_singleton.1 hon).symm
        subst hkk
        have hgf : ff.generic = false := by
          rw [hff] at hf1
          cases hf1
          exact hg2
        refine ⟨kk, ff, rfl, hs, hff, hfl, ?_, hinner.resolve_right hne⟩
        by_cases hreq : ff.requires_ = none
        · exact hreq
        · exfalso
          have hpl := (hi1.fn kk ff hff).plain hgf
          have hmem := hrefs (.node j0) (by simp)
          cases hgen0 : f0.generic with
          | false =>
            obtain ⟨hj, -⟩ := hplain hgen0
            subst hj
            exact hpl.noSelf hfr hreq hmem
          | true =>
            obtain ⟨f0', hf0', hle0⟩ := he1.fns j0 f0 hf0
            have := (hpl.instRefs hfr (hinst hgen0) j0 hmem).2 f0' hf0'
            subst this
            rw [hff] at hf0'
            cases hf0'
            rw [hle0.generic, hgen0] at hgf
            cases hgf
    obtain ⟨hi2, he2⟩ := haf j1 inner s1 s2 hi1 hinner
      ⟨f1, hf1, hg2, fun hon => by
        obtain ⟨kk, ff, rfl, hs, hff, hfl, -, hsh⟩ := hself hon
        rw [hff] at hf1
        cases hf1
        rw [hsh]
        rw [Level.ne_unanalyzed] at hfl
        simpa [Level.rank] using hfl⟩ haf'
    obtain ⟨f2', hf2', hle2⟩ := he2.fns j1 f1 hf1
    rw [hf2] at hf2'
    cases hf2'
    have hgen2 : f2.generic = false := hle2.generic.trans hg2
    have hp2 := (hi2.fn j1 f2 hf2).plain hgen2
    have hlev' : inner.rank ≤ f2.level.rank := by simpa using hlev
    have hl2 : f2.level ≠ .unanalyzed := by
      rw [Level.ne_unanalyzed]
      have : 1 ≤ inner.rank := by rcases hinner with rfl | rfl <;> simp [Level.rank]
      omega
    obtain ⟨rt, hrt⟩ := hp2.sigRet hl2
    have hrv : r = Value.unknownOf rt := by
      rcases hp2.cv hl2 with h1 | ⟨hon, h1⟩
      · rw [h1, hrt.1] at hr
        exact (Option.some.inj hr).symm
      · exfalso
        rw [he2.stack] at hon
        obtain ⟨kk, ff, rfl, hs, hff, hfl, hreq, hsh⟩ := hself hon
        have := he2.onStack kk (by rw [hs]; simp)
        rw [hf2, hff] at this
        cases this
        rcases h1 with h1 | h1
        · rw [h1] at hr; cases hr
        · exact h1 hreq
    have hsig := hp2.sigParams hl2
    have he : Ext [] s s2 := he1.trans he2
    by_cases hctx : ctx = .constant
    · simp only [hctx, if_true, AM.bind_ok, AM.value_ok, AM.assert_ok] at hc
      obtain ⟨a, _, ⟨ha, rfl⟩, _, _, ⟨hlt, rfl⟩, cs, s3, hpass, hc⟩ := hc
      obtain ⟨rfl, hwf, -⟩ := passArgs_ok hargs hsig hpass
      cases hcc : constantCall { Vm.initial with instructions := s2.code } a cs n with
      | none => simp [hcc, AM.timeout_ok] at hc
      | some o =>
        cases o with
        | ok v =>
          simp only [hcc, AM.pure_ok, Prod.mk.injEq] at hc
          obtain ⟨⟨rfl, rfl⟩, rfl⟩ := hc
          refine ⟨hi2, he, .known (constantCall_wf hi2.code hwf (by simpa using hlt) hcc), fun e => ?_,
            fun _ => ⟨f2, a, cs, v, hf2, hgen2, ?_, ?_, ha, by rw [hctx]; exact hpass, hcc, rfl⟩⟩
          · rw [hctx] at e; cases e
          · rw [Level.eq_forConst]
            rw [← hin, hctx] at hlev'
            simpa [Level.rank] using hlev'
          · rw [hle2.params, hg3]
            simpa using hlen
        | err e => simp [hcc, AM.fail_ok] at hc
        | throws => simp [hcc, AM.throws_ok] at hc
        | ub => simp [hcc, AM.ub_ok] at hc
    · simp only [hctx, if_false, AM.bind_ok, AM.pure_ok, Prod.mk.injEq] at hc
      obtain ⟨cs, s3, hpass, ⟨rfl, rfl⟩, rfl⟩ := hc
      obtain ⟨rfl, -, hall⟩ := passArgs_ok hargs hsig hpass
      subst hrv
      refine ⟨hi2, he, .unknownOf hrt.2.2, fun e => ?_, fun e => absurd e hctx⟩
      refine ⟨_, typeOf f2.ret, ?_, ?_, hall ?_⟩
      · simp only [ctxOf, hf2, Option.bind_some]
        rw [if_pos ⟨hgen2, by rw [← hinner' e]; exact hlev'⟩]
        rfl
      · rw [hrt.typeOf]; rfl
      · rw [hle2.params, hg3]
        simpa using hlen

/-! ## Expressions -/

theorem sigT_uint {k : Key} {x : Int} {w : AExpr} {t : CType} {ε : Type}
    (h : CType.mkUint (ε := ε) x = .ok t) :
    SigT (.uint k (some (Value.unknownOf t)) (some x.toNat) w) t := by
  obtain ⟨rfl, h1, h2, h3⟩ := mkUint_ok h
  refine ⟨rfl, ?_, ?_⟩
  · have : ((x.toNat : Nat) : Int) = x := Int.toNat_of_nonneg (by omega)
    simp only [AType.eraseType, AType.concreteType, this, CType.mkUint, Outcome.assert]
    have h4 : x ≤ 128 := by omega
    have h5 : x > 1 := h3
    have h6 : x > 0 := h1
    simp [h4, h5, h6, h2, Outcome.map]
  · simp only [CType.WF]
    omega

theorem base_wf (b : BaseType) : b.type.WF := by cases b <;> trivial

theorem sigT_base (k : Key) (b : BaseType) : SigT (.base k (some (Value.unknownOf b.type)) b) b.type :=
  ⟨rfl, rfl, base_wf b⟩

theorem literal_ok {s s' : ASt} {k : Key} {lit : Option Lit} {e' : AExpr}
    (h : Ana.literal k none lit s = .ok e' s') :
    s = s' ∧ ∃ l v, lit = some l ∧ litValue l = some v ∧
      e' = .literal k (some (Value.known v)) lit := by
  unfold Ana.literal at h
  cases lit with
  | none => simp [AM.throws_ok] at h
  | some l =>
    cases l with
    | true_ =>
      simp only [AM.pure_ok] at h
      exact ⟨h.2, _, CVal.tt, rfl, rfl, h.1.symm⟩
    | false_ =>
      simp only [AM.pure_ok] at h
      exact ⟨h.2, _, CVal.ff, rfl, rfl, h.1.symm⟩
    | integer text =>
      simp only at h
      cases hp : parseIntegerLiteral text with
      | none => simp [hp, AM.fail_ok] at h
      | some x =>
        simp only [hp, AM.pure_ok] at h
        exact ⟨h.2, _, CVal.ofInt x, rfl, by simp [litValue, hp], h.1.symm⟩

theorem values_ok {s s' : ASt} : ∀ {args : List AExpr} {vs : List Value},
    (args.mapM fun (a : AExpr) => AM.value a.cv) s = .ok vs s' →
    s = s' ∧ args.map AExpr.cv = vs.map some := by
  intro args
  induction args with
  | nil =>
    intro vs h
    simp only [List.mapM_nil, AM.pure_ok] at h
    obtain ⟨rfl, rfl⟩ := h
    simp
  | cons a as ih =>
    intro vs h
    simp only [List.mapM_cons, AM.bind_ok, AM.value_ok, AM.pure_ok] at h
    obtain ⟨v, _, ⟨hv, rfl⟩, vs', s1, h1, rfl, rfl⟩ := h
    obtain ⟨rfl, h2⟩ := ih h1
    exact ⟨rfl, by simp [hv, h2]⟩

theorem rightContext_ok {s s' : ASt} {k : Key} {op : ExprType} {left : Option Value} {ctx c : ECtx}
    (h : Ana.rightContext k op left ctx s = .ok c s') : s = s' ∧ (ctx = .normal → c = .normal) := by
  unfold Ana.rightContext at h
  split at h
  · rename_i hc
    simp only [AM.bind_ok, AM.deref_ok, AM.ite_fail_ok, AM.get_ok, AM.pure_ok] at h
    obtain ⟨_, _, ⟨_, rfl⟩, _, _, _, ⟨_, rfl⟩, _, rfl⟩ := h
    exact ⟨rfl, fun e => by rw [hc.1] at e; cases e⟩
  · simp only [AM.pure_ok] at h
    obtain ⟨rfl, rfl⟩ := h
    exact ⟨rfl, _root_.id⟩

theorem EOk.same {N : Nat} {level : Level} {ctx : ECtx} {e e' : AExpr} {s : ASt} (h : Inv N s)
    (hd : DoneE e') (hv : ∀ v, e'.cv = some v → VOk v)
    (ht : ctx = .normal → ParamRefs s (refsE e) → e'.cv.isSome →
      Typed (ctxOf (innerOf level) s) e'.erase) : EOk N level ctx e s e' s := ⟨h, .refl _ _, hd, hv, ht⟩

theorem typedAll {Γ : Ctx} {es : List AExpr} (h : ∀ a ∈ es, Typed Γ a.erase) :
    ∀ a ∈ eraseAll es, Typed Γ a := by
  rw [eraseAll_eq]
  intro a ha
  obtain ⟨b, hb, rfl⟩ := List.mem_map.1 ha
  exact h b hb

section

variable {N n : Nat} {af : Key → Level → AM Unit} (haf : AfOk N af)

include haf

mutual

/-- Expressions that have not been analyzed before. -/
theorem expr_raw_ok : (e : AExpr) → {s s' : ASt} → {level : Level} → {ctx : ECtx} → {e' : AExpr} →
    Inv N s → RawE e → Mode level ctx s (refsE e) → Ana.expr n af e level ctx s = .ok e' s' →
    EOk N level ctx e s e' s'
  | .literal k cv lit, s, s', level, ctx, e', h, hr, _, hx => by
    simp only [RawE] at hr
    subst hr
    rw [Ana.expr] at hx
    obtain ⟨rfl, l, v, rfl, hl, rfl⟩ := literal_ok hx
    refine .same h (by simp [DoneE]) (fun w hw => ?_) (fun _ _ _ => ?_)
    · simp only [AExpr.cv, Option.some.injEq] at hw
      subst hw
      exact .known (litValue_wf hl)
    · simp only [AExpr.erase, eraseLit]
      exact .literal hl
  | .id k cv name ref g, s, s', level, ctx, e', h, hr, _, hx => by
    simp only [RawE] at hr
    subst hr
    rw [Ana.expr] at hx
    simp only [AM.bind_ok, AM.pure_ok] at hx
    obtain ⟨cv, s1, hv, rfl, rfl⟩ := hx
    obtain ⟨rfl, h1, h2⟩ := idValue_ok h hv
    refine .same h (by simp [DoneE]) h1 (fun hc hp hs => ?_)
    simp only [AExpr.erase]
    obtain ⟨v, hv'⟩ := Option.isSome_iff_exists.1 hs
    exact h2 hc (by simpa [refsE] using hp) _ v hv'
  | .conversion k cv e ty, s, s', level, ctx, e', h, hr, hm, hx => by
    simp only [RawE] at hr
    simp only [Ana.expr, AM.bind_ok, AM.value_ok, AM.get_ok, AM.ite_fail_ok, AM.pure_ok] at hx
    obtain ⟨e1, s1, h1, ty1, s2, h2, v, _, ⟨hv, rfl⟩, o, _, ⟨ho, rfl⟩, t, _, ⟨rfl, rfl⟩, hc, w, _, hf,
      rfl, rfl⟩ := hx
    obtain ⟨hf', rfl⟩ := AM.foldResult_ok hf
    have a := expr_raw_ok e h hr.2.1 (hm.sub fun r hr => by simp [refsE, hr]) h1
    have b := type_raw_ok ty a.inv hr.2.2 h2
    obtain ⟨t', ht⟩ := b.sig
    have := ht.concrete ho
    subst this
    refine ⟨b.inv, a.ext.trans b.ext, ⟨a.done, by rw [ht.1]; rfl⟩, fun u hu => ?_, fun hn hp _ => ?_⟩
    · simp only [AExpr.cv, Option.some.injEq] at hu
      subst hu
      exact (a.vok v hv).conversion ht.2.2 hf'
    · simp only [AExpr.erase, ht.2.1]
      refine .conversion ?_ (by rw [AExpr.erase_cv]; exact hv) ht.2.2 (by simpa using hc) hf'
      exact (a.typed hn (hp.sub fun r hr => by simp [refsE, hr]) (by simp [hv])).mono
        (b.ext.ctx (innerOf_ne _))
  | .ite k cv l c r, s, s', level, ctx, e', h, hr, hm, hx => by
    simp only [RawE] at hr
    simp only [Ana.expr, AM.bind_ok, AM.deref_ok, AM.ite_fail_ok, AM.checked_ok] at hx
    obtain ⟨c1, s1, h1, vc, _, ⟨hvc, rfl⟩, hb, hx⟩ := hx
    obtain ⟨chosen, hchosen, l1, s3, h2, r1, s4, h3, vl, vr, t, hvl, hvr, ht, hx⟩ : ∃ chosen : Option Bool,
        (ctx = .normal → chosen = none) ∧ ∃ l1 s3,
        Ana.expr n af l level (if chosen = some false then .normal else ctx) s1 = .ok l1 s3 ∧ ∃ r1 s4,
        Ana.expr n af r level (if chosen = some true then .normal else ctx) s3 = .ok r1 s4 ∧
        ∃ vl vr t, l1.cv = some vl ∧ r1.cv = some vr ∧ checkIf vl.type vc.type vr.type = .ok t ∧
        (match evalIfV vl vc vr with
          | .ok w => pure (.ite k (some w) l1 c1 r1)
          | .err _ =>
            if ctx = .constant then AM.throws
            else pure (.ite k (some (Value.unknownOf t)) l1 c1 r1)
          | .throws => AM.throws
          | .ub => AM.ub : AM AExpr) s4 = .ok e' s' := by
      by_cases hcc : ctx = .constant
      · simp only [if_pos hcc, AM.bind_ok, AM.deref_ok, AM.assert_ok, AM.get_ok, AM.checked_ok,
          AM.pure_ok] at hx
        obtain ⟨_, _, ⟨_, rfl⟩, b, _, ⟨_, rfl⟩, _, _, ⟨rfl, rfl⟩, l1, s3, h2, r1, s4, h3, vl, _, ⟨hvl, rfl⟩,
          vr, _, ⟨hvr, rfl⟩, t, _, ⟨ht, rfl⟩, hx⟩ := hx
        refine ⟨some b, fun e => (by rw [hcc] at e; cases e), l1, s3, h2, r1, s4, h3, vl, vr, t, hvl, hvr,
          ht, ?_⟩
        simp only [if_pos hcc]
        exact hx
      · simp only [if_neg hcc, AM.bind_ok, AM.deref_ok, AM.assert_ok, AM.get_ok, AM.checked_ok,
          AM.pure_ok] at hx
        obtain ⟨_, _, ⟨rfl, rfl⟩, l1, s3, h2, r1, s4, h3, vl, _, ⟨hvl, rfl⟩,
          vr, _, ⟨hvr, rfl⟩, t, _, ⟨ht, rfl⟩, hx⟩ := hx
        refine ⟨none, fun _ => rfl, l1, s3, h2, r1, s4, h3, vl, vr, t, hvl, hvr, ht, ?_⟩
        simp only [if_neg hcc]
        exact hx
    have a := expr_raw_ok c h hr.2.2.1 (hm.sub fun r hr => by simp [refsE, hr]) h1
    have hmode : ∀ {ctx'}, (ctx = .normal → ctx' = .normal) → Mode level ctx' s (refsE (.ite k cv l c r)) := by
      intro ctx' hc'
      cases ctx with
      | constant => exact hm.constant _
      | normal => rw [hc' rfl]; exact hm
    have b := expr_raw_ok l a.inv hr.2.1
      (((hmode fun e => by simp [hchosen e, e]).sub fun r hr => by simp [refsE, hr]).ext a.ext) h2
    have d := expr_raw_ok r b.inv hr.2.2.2
      (((hmode fun e => by simp [hchosen e, e]).sub fun r hr => by simp [refsE, hr]).ext
        (a.ext.trans b.ext)) h3
    have hfin : ∃ w, Folds (evalIfV vl vc vr) t w ∧ e' = .ite k (some w) l1 c1 r1 ∧ s4 = s' := by
      cases hev : evalIfV vl vc vr with
      | ok w =>
        simp only [hev, AM.pure_ok] at hx
        exact ⟨w, .inl rfl, hx.1.symm, hx.2⟩
      | err e =>
        simp only [hev] at hx
        split at hx
        · simp [AM.throws_ok] at hx
        · simp only [AM.pure_ok] at hx
          exact ⟨_, .inr ⟨⟨e, rfl⟩, rfl⟩, hx.1.symm, hx.2⟩
      | throws => simp [hev, AM.throws_ok] at hx
      | ub => simp [hev, AM.ub_ok] at hx
    obtain ⟨w, hf, rfl, rfl⟩ := hfin
    refine ⟨d.inv, a.ext.trans (b.ext.trans d.ext), ⟨b.done, a.done, d.done⟩, fun u hu => ?_,
      fun hn hp _ => ?_⟩
    · simp only [AExpr.cv, Option.some.injEq] at hu
      subst hu
      exact (b.vok vl hvl).ite (a.vok vc hvc) (d.vok vr hvr) ht hf
    · simp only [AExpr.erase]
      have hcn := hchosen hn
      refine .ite (vl := vl) (vc := vc) (vr := vr) (t := t) ?_ ?_ ?_ (by rw [AExpr.erase_cv]; exact hvl)
        (by rw [AExpr.erase_cv]; exact hvc) (by rw [AExpr.erase_cv]; exact hvr) ht hf
      · exact (b.typed (by simp [hcn, hn]) ((hp.sub fun r hr => by simp [refsE, hr]).ext a.ext)
          (by simp [hvl])).mono (d.ext.ctx (innerOf_ne _))
      · exact (a.typed hn (hp.sub fun r hr => by simp [refsE, hr]) (by simp [hvc])).mono
          ((b.ext.trans d.ext).ctx (innerOf_ne _))
      · exact d.typed (by simp [hcn, hn]) ((hp.sub fun r hr => by simp [refsE, hr]).ext
          (a.ext.trans b.ext)) (by simp [hvr])
  | .binary k cv op l r, s, s', level, ctx, e', h, hr, hm, hx => by
    simp only [RawE] at hr
    simp only [Ana.expr, AM.bind_ok, AM.assert_ok, AM.deref_ok, AM.checked_ok, AM.pure_ok] at hx
    obtain ⟨l1, s1, h1, _, _, ⟨_, rfl⟩, ctx', s2, hctx, r1, s3, h2, _, _, ⟨_, rfl⟩, vl, _, ⟨hvl, rfl⟩, vr, _,
      ⟨hvr, rfl⟩, t, _, ⟨ht, rfl⟩, w, _, hf, rfl, rfl⟩ := hx
    obtain ⟨rfl, hctx'⟩ := rightContext_ok hctx
    obtain ⟨hf', rfl⟩ := AM.foldResult_ok hf
    have a := expr_raw_ok l h hr.2.1 (hm.sub fun r hr => by simp [refsE, hr]) h1
    have hmode : Mode level ctx' s (refsE (.binary k cv op l r)) := by
      cases ctx with
      | constant => exact hm.constant _
      | normal => rw [hctx' rfl]; exact hm
    have b := expr_raw_ok r a.inv hr.2.2 ((hmode.sub fun r hr => by simp [refsE, hr]).ext a.ext) h2
    refine ⟨b.inv, a.ext.trans b.ext, ⟨a.done, b.done⟩, fun u hu => ?_, fun hn hp _ => ?_⟩
    · simp only [AExpr.cv, Option.some.injEq] at hu
      subst hu
      exact (a.vok vl hvl).binary (b.vok vr hvr) ht hf'
    · simp only [AExpr.erase]
      refine .binary (vl := vl) (vr := vr) (t := t) ?_ ?_ (by rw [AExpr.erase_cv]; exact hvl)
        (by rw [AExpr.erase_cv]; exact hvr) ht hf'
      · exact (a.typed hn (hp.sub fun r hr => by simp [refsE, hr]) (by simp [hvl])).mono
          (b.ext.ctx (innerOf_ne _))
      · exact b.typed (hctx' hn) ((hp.sub fun r hr => by simp [refsE, hr]).ext a.ext) (by simp [hvr])
  | .prefix k cv op e, s, s', level, ctx, e', h, hr, hm, hx => by
    simp only [RawE] at hr
    simp only [Ana.expr, AM.bind_ok, AM.value_ok, AM.checked_ok, AM.pure_ok] at hx
    obtain ⟨e1, s1, h1, v, _, ⟨hv, rfl⟩, t, _, ⟨ht, rfl⟩, w, _, hf, rfl, rfl⟩ := hx
    obtain ⟨hf', rfl⟩ := AM.foldResult_ok hf
    have a := expr_raw_ok e h hr.2 (hm.sub fun r hr => by simpa [refsE] using hr) h1
    refine ⟨a.inv, a.ext, a.done, fun u hu => ?_, fun hn hp _ => ?_⟩
    · simp only [AExpr.cv, Option.some.injEq] at hu
      subst hu
      exact (a.vok v hv).pre ht hf'
    · simp only [AExpr.erase]
      exact .pre (a.typed hn (hp.sub fun r hr => by simpa [refsE] using hr) (by simp [hv]))
        (by rw [AExpr.erase_cv]; exact hv) ht hf'
  | .call k cv st name ref args, s, s', level, ctx, e', h, hr, hm, hx => by
    simp only [RawE] at hr
    obtain ⟨-, rfl, hr⟩ := hr
    have hsub : ∀ r ∈ refsEs args, r ∈ refsE (.call k cv false name ref args) := fun r hr => by
      simp [refsE, hr]
    cases ref with
    | none => simp [Ana.expr, AM.throws_ok] at hx
    | some r =>
      cases r with
      | param p => simp [Ana.expr, AM.bind_ok, AM.ub_ok] at hx
      | builtin f =>
        simp only [Ana.expr, AM.bind_ok, AM.checked_ok, AM.lift_ok, AM.pure_ok] at hx
        obtain ⟨args1, s1, h1, vs, s2, h2, _, _, ⟨_, rfl⟩, w, _, ⟨hev, rfl⟩, rfl, rfl⟩ := hx
        have a := exprs_raw_ok args h hr (hm.sub hsub) h1
        obtain ⟨rfl, hvs⟩ := values_ok h2
        refine ⟨a.inv, a.ext, a.done, fun u hu => ?_, fun hn hp _ => ?_⟩
        · simp only [AExpr.cv, Option.some.injEq] at hu
          subst hu
          refine VOk.builtin (fun v hv => ?_) hev
          have : some v ∈ args1.map AExpr.cv := by rw [hvs]; exact List.mem_map_of_mem hv
          obtain ⟨a', ha', he⟩ := List.mem_map.1 this
          obtain ⟨v', h3, h4⟩ := a.vok a' ha'
          rw [he] at h3
          cases h3
          exact h4
        · simp only [AExpr.erase]
          refine .builtin (typedAll (a.typed hn (hp.sub hsub))) ?_ hev
          rw [eraseAll_eq, List.map_map, ← hvs]
          exact List.map_congr_left fun b _ => AExpr.erase_cv b
      | node j0 =>
        simp only [Ana.expr, AM.bind_ok, AM.pure_ok] at hx
        obtain ⟨args1, s1, h1, ⟨j, w⟩, s2, h2, rfl, rfl⟩ := hx
        have a := exprs_raw_ok args h hr (hm.sub hsub) h1
        obtain ⟨b1, b2, b3, b4, -⟩ := callFunction_ok haf a.inv a.vok
          ((hm.sub (refs' := [.node j0]) fun r hr => by
            rw [List.mem_singleton.1 hr]; simp [refsE]).ext a.ext) h2
        refine ⟨b1, a.ext.trans b2, a.done, fun u hu => ?_, fun hn hp _ => ?_⟩
        · simp only [AExpr.cv, Option.some.injEq] at hu
          subst hu
          exact b3
        · obtain ⟨ts, t, c1, rfl, c3⟩ := b4 hn
          simp only [AExpr.erase]
          refine .call c1 (typedAll fun x hx => (a.typed hn (hp.sub hsub) x hx).mono
            (b2.ctx (innerOf_ne _))) ?_
          rw [eraseAll_eq]
          exact c3

/-- Types that have not been analyzed before. -/
theorem type_raw_ok : (ty : AType) → {s s' : ASt} → {ty' : AType} → Inv N s → RawT ty →
    Ana.type n af ty s = .ok ty' s' → TOk N s ty' s'
  | .base k cv b, s, s', ty', h, hr, hx => by
    simp only [RawT] at hr
    subst hr
    simp only [Ana.type, AM.pure_ok] at hx
    obtain ⟨rfl, rfl⟩ := hx
    exact ⟨h, .refl _ _, _, sigT_base k b⟩
  | .uint k cv c w, s, s', ty', h, hr, hx => by
    simp only [RawT] at hr
    obtain ⟨rfl, -, hr⟩ := hr
    simp only [Ana.type, AM.bind_ok, AM.value_ok, AM.ite_fail_ok, AM.get_ok, AM.pure_ok] at hx
    obtain ⟨w1, s1, h1, v, _, ⟨hv, rfl⟩, _, x, _, ⟨hx', rfl⟩, _, t, _, ⟨ht, rfl⟩, rfl, rfl⟩ := hx
    have a := expr_raw_ok w h hr (.inl rfl) h1
    exact ⟨a.inv, a.ext, t, sigT_uint ht⟩

/-- Arguments that have not been analyzed before. -/
theorem exprs_raw_ok : (es : List AExpr) → {s s' : ASt} → {level : Level} → {ctx : ECtx} →
    {es' : List AExpr} → Inv N s → RawEs es → Mode level ctx s (refsEs es) →
    Ana.exprs n af es level ctx s = .ok es' s' → EsOk N level ctx es s es' s'
  | [], s, s', level, ctx, es', h, _, _, hx => by
    simp only [Ana.exprs, AM.pure_ok] at hx
    obtain ⟨rfl, rfl⟩ := hx
    exact ⟨h, .refl _ _, trivial, by simp, by simp⟩
  | e :: es, s, s', level, ctx, es', h, hr, hm, hx => by
    simp only [RawEs] at hr
    simp only [Ana.exprs, AM.bind_ok, AM.value_ok, AM.pure_ok] at hx
    obtain ⟨e1, s1, h1, v, _, ⟨hv, rfl⟩, es1, s2, h2, rfl, rfl⟩ := hx
    have a := expr_raw_ok e h hr.1 (hm.sub fun r hr => by simp [refsEs, hr]) h1
    have b := exprs_raw_ok es a.inv hr.2 ((hm.sub fun r hr => by simp [refsEs, hr]).ext a.ext) h2
    refine ⟨b.inv, a.ext.trans b.ext, ⟨a.done, b.done⟩, fun x hx => ?_, fun hn hp x hx => ?_⟩
    · rcases List.mem_cons.1 hx with rfl | hx
      · exact ⟨v, hv, a.vok v hv⟩
      · exact b.vok x hx
    · rcases List.mem_cons.1 hx with rfl | hx
      · exact (a.typed hn (hp.sub fun r hr => by simp [refsEs, hr]) (by simp [hv])).mono
          (b.ext.ctx (innerOf_ne _))
      · exact b.typed hn ((hp.sub fun r hr => by simp [refsEs, hr]).ext a.ext) x hx

end

end

end Bms
