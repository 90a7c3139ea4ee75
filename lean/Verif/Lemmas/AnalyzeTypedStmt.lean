import Verif.Lemmas.AnalyzeTypedFn
import Verif.Lemmas.AnalyzeCalmStmt

/-!
# Analysis of well-typed statements, functions and programs reports no error
-/

namespace Bms

open Spec

section

variable {T : Typing} {S X own seen : List Key} {n : Nat} {af : Key → Level → AM Unit}

theorem type_safe {s : ASt} (hs : ValsOk T seen s) {src ty : AType} (hr : RawT src) (h : TypeAt T src ty) {t : CType}
    (ht : valueT T seen src = some t) : Safe (fun ty' s' => s = s' ∧ SigC ty' t) (Ana.type n af ty) s := by
  rcases h with rfl | ⟨u, hu, hsig⟩
  · exact valueT_safe hs hr ht
  · rw [(valueT_iff.1 ht).1] at hu
    cases hu
    have hc := hsig.1
    cases ty <;> simp only [AType.cv] at hc <;> subst hc <;> rw [Ana.type.eq_def] <;> exact .pure ⟨rfl, hsig⟩

theorem declaredType_safe {s : ASt} (hs : ValsOk T seen s) {ty : AType} (hr : RawT ty) {t : CType} (h : valueT T seen ty = some t) :
    Safe (fun (r : AType × CType) s' => s = s' ∧ r.2 = t ∧ t.WF) (Ana.declaredType n af ty) s := by
  unfold Ana.declaredType
  refine Safe.bind (valueT_safe hs hr h) fun ty' _ _ h => ?_
  obtain ⟨rfl, hsig⟩ := h
  rw [hsig.1]
  refine .value_bind fun _ h => ?_
  cases h
  exact .pure ⟨rfl, rfl, hsig.2.2⟩

theorem const_safe {s : ASt} (hs : ValsOk T seen s) {ty : Option AType} {init : AExpr} {k : Key} {c : CVal}
    (ht : ∀ t ∈ ty, RawT t) (hr : RawE init) (h : constantOf T seen ty init = some c) :
    Safe (fun (r : Value × Option AType × AExpr) s' => s = s' ∧ r.1 = Value.known c ∧ WF c) (Ana.const_ n af k ty init) s := by
  unfold Ana.const_
  cases ty with
  | none =>
    simp only [constantOf] at h
    refine Safe.bind (valueE_safe hs hr h _ _) fun e' _ _ h' => ?_
    obtain ⟨rfl, hcv, hw⟩ := h'
    rw [hcv]
    refine .deref_bind fun _ h => ?_
    cases h
    refine .assert_bind fun _ => ?_
    exact .pure ⟨rfl, rfl, hw⟩
  | some ty =>
    simp only [constantOf] at h
    cases h1 : valueT T seen ty with
    | none => simp [h1] at h
    | some t =>
      cases h2 : valueE T seen init with
      | none => simp [h1, h2] at h
      | some v =>
        simp only [h1, h2] at h
        split at h
        · next hcv =>
          cases hy : evalConversion v t with
          | ok w =>
            simp only [hy, Option.some.injEq] at h
            subst h
            refine Safe.bind (declaredType_safe hs (ht ty rfl) h1) fun r _ _ h' => ?_
            obtain ⟨rfl, rfl, htw⟩ := h'
            obtain ⟨ty', t⟩ := r
            simp only at hcv hy htw
            refine Safe.bind (valueE_safe hs hr h2 _ _) fun e' _ _ h' => ?_
            obtain ⟨rfl, hc, hw⟩ := h'
            rw [hc]
            refine .deref_bind fun _ h => ?_
            cases h
            refine .ite (fun h => absurd hcv h) fun _ => ?_
            have hx : evalConversionV (Value.known v) t = .ok (Value.known w) := by
              rw [conversion_known hcv, hy]
              rfl
            refine Safe.bind (P := fun a s' => s = s' ∧ Value.known w = a) (.lift (fun e he => by rw [hx] at he; cases he)
              fun a ha => by rw [hx] at ha; cases ha; exact ⟨rfl, rfl⟩) fun a _ _ h => ?_
            obtain ⟨rfl, rfl⟩ := h
            exact .pure ⟨rfl, rfl, (C11_conversion_wf hw htw hy).1⟩
          | _ => simp [hy] at h
        · cases h

theorem let_safe (hT : StaticOk T) {self : Key} (haf : AfSafe T S [self] own seen af) {s : ASt} (hs : TypedSt T S [self] own seen s)
    {k : Key} {ty : Option AType} {init : Option AExpr} (ht : ∀ t ∈ ty, RawT t) (hr : ∀ e ∈ init, RawE e) {t : CType}
    (h : varType T self own seen ty init = some t) :
    Safe (fun (r : CType × Option AType × Option AExpr) s' => TypedSt T S [self] own seen s' ∧ r.1 = t ∧ t.WF)
      (Ana.let_ n af k ty init .full) s := by
  unfold Ana.let_
  cases ty with
  | none =>
    cases init with
    | none => cases h
    | some e =>
      refine Safe.bind (typeE_safe hT haf e hs (hr e rfl) h) fun e' s1 _ h => ?_
      obtain ⟨hs, v, hv, rfl, hok, -⟩ := h
      rw [hv]
      refine .value_bind fun _ h => ?_
      cases h
      exact .pure ⟨hs, rfl, hok.1⟩
  | some ty =>
    cases init with
    | none =>
      refine Safe.bind (declaredType_safe hs.vals (ht ty rfl) h) fun r _ _ h' => ?_
      obtain ⟨rfl, hty, htw⟩ := h'
      exact .pure ⟨hs, hty, htw⟩
    | some e =>
      simp only [varType] at h
      cases h1 : valueT T seen ty with
      | none => simp [h1] at h
      | some t' =>
        cases h2 : typeE T self own seen e with
        | none => simp [h1, h2] at h
        | some u =>
          simp only [h1, h2] at h
          split at h
          · next hc =>
            cases h
            refine Safe.bind (declaredType_safe hs.vals (ht ty rfl) h1) fun r _ _ h' => ?_
            obtain ⟨rfl, rfl, htw⟩ := h'
            refine Safe.bind (typeE_safe hT haf e hs (hr e rfl) h2) fun e' s1 _ h => ?_
            obtain ⟨hs, v, hv, rfl, hok, -⟩ := h
            rw [hv]
            refine .deref_bind fun _ h => ?_
            cases h
            exact .ite (fun h => absurd hc h) fun _ => .pure ⟨hs, rfl, htw⟩
          · cases h

theorem staticAssert_safe {s : ASt} (hs : ValsOk T seen s) {k : Key} {e : AExpr} (hr : RawE e)
    (h : valueE T seen e = some (CVal.ofBool true)) : Safe (fun _ s' => s = s') (Ana.staticAssert n af k e) s := by
  unfold Ana.staticAssert
  refine Safe.bind (valueE_safe hs hr h _ _) fun e' _ _ h' => ?_
  obtain ⟨rfl, hc, hw⟩ := h'
  refine .assert_bind fun _ => ?_
  rw [hc]
  refine .deref_bind fun _ h => ?_
  cases h
  refine .ite (fun h => absurd rfl h) fun hb => ?_
  refine .get_bind (fun e h => by cases h) fun b h => ?_
  cases h
  exact .ite (fun h => absurd rfl h) fun _ => .pure rfl

theorem condition_safe (hT : StaticOk T) {self : Key} (haf : AfSafe T S [self] own seen af) {s : ASt}
    (hs : TypedSt T S [self] own seen s) {k : Key} {c : AExpr} (hr : RawE c) (h : typeE T self own seen c = some .bool) :
    Safe (fun _ => TypedSt T S [self] own seen) (Ana.condition n af k c .full) s := by
  unfold Ana.condition
  refine Safe.bind (typeE_safe hT haf c hs hr h) fun e' s1 _ h => ?_
  obtain ⟨hs, v, hv, hb, -⟩ := h
  rw [hv]
  refine .value_bind fun _ h => ?_
  cases h
  exact .ite (fun h => absurd hb h) fun _ => .pure hs

theorem fits_safe (hT : StaticOk T) {self : Key} (haf : AfSafe T S [self] own seen af) {s : ASt}
    (hs : TypedSt T S [self] own seen s) {e : AExpr} (hr : RawE e) {t : CType} (h : fits T self own seen e t = true) :
    Safe (fun e' s' => TypedSt T S [self] own seen s' ∧ ∃ v, e'.cv = some v ∧ v.type.isConvertibleTo t = true)
      (Ana.expr n af e .full .normal) s := by
  unfold fits at h
  cases hu : typeE T self own seen e with
  | none => simp [hu] at h
  | some u =>
    simp only [hu] at h
    refine (typeE_safe hT haf e hs hr hu).mono fun e' s' _ h' => ?_
    obtain ⟨hs, v, hv, rfl, -⟩ := h'
    exact ⟨hs, v, hv, h⟩

/-! ## Statements -/

mutual

theorem stmt_safe (hT : StaticOk T) {self : Key} (haf : ∀ seen, AfSafe T S [self] own seen af) {ret : CType} : (t : AStmt) →
    {loop : Bool} → {seen : List Key} → {s : ASt} → TypedSt T S [self] own seen s → RawS t →
    okS T self own ret loop seen t = true →
    Safe (fun _ => TypedSt T S [self] own (seen ++ declares t)) (Ana.stmt n af ret .full loop t) s
  | .const_ k cv name ty init, loop, seen, s, hs, hr, hq => by
    rw [Ana.stmt.eq_def]
    obtain ⟨rfl, ht, hi⟩ := hr
    rw [okS] at hq
    simp only [okConst, Bool.and_eq_true, decide_eq_true_eq, List.contains_iff_mem] at hq
    obtain ⟨⟨hk, h1⟩, h2⟩ := hq
    obtain ⟨c, hc⟩ := Option.isSome_iff_exists.1 h1
    rw [hc] at h2
    refine Safe.bind (const_safe hs.vals ht hi hc) fun r _ _ h => ?_
    obtain ⟨rfl, hv, hw⟩ := h
    obtain ⟨v, ty', init'⟩ := r
    simp only at hv
    subst hv
    exact .modify_bind (.pure (hs.const hT hw h2 hk))
  | .let_ k cv name ty init, loop, seen, s, hs, hr, hq => by
    rw [Ana.stmt.eq_def]
    obtain ⟨rfl, ht, hi⟩ := hr
    rw [okS] at hq
    simp only [Bool.and_eq_true, decide_eq_true_eq, List.contains_iff_mem] at hq
    obtain ⟨⟨hk, h1⟩, h2⟩ := hq
    obtain ⟨c, hc⟩ := Option.isSome_iff_exists.1 h1
    rw [hc] at h2
    refine Safe.bind (let_safe hT (haf seen) hs ht hi hc) fun r _ _ h => ?_
    obtain ⟨hs, rfl, hw⟩ := h
    obtain ⟨t, ty', init'⟩ := r
    exact .modify_bind (.pure (hs.let_ hT hw h2 hk))
  | .staticAssert k cv e, loop, seen, s, hs, hr, hq => by
    rw [Ana.stmt.eq_def]
    obtain ⟨rfl, hr⟩ := hr
    rw [okS] at hq
    refine Safe.bind (staticAssert_safe hs.vals hr (of_decide_eq_true hq)) fun r _ _ h => ?_
    subst h
    exact .pure (by simpa [declares] using hs)
  | .ifThen k cv c t, loop, seen, s, hs, hr, hq => by
    rw [Ana.stmt.eq_def]
    simp only [okS, Bool.and_eq_true, decide_eq_true_eq] at hq
    refine Safe.bind (condition_safe hT (haf seen) hs hr.2.1 hq.1) fun _ _ _ hs => ?_
    exact Safe.bind (stmt_safe hT haf t hs hr.2.2 hq.2) fun _ _ _ hs => .pure (hs.less fun j hj => by simp only [declares, List.append_nil] at hj; exact List.mem_append_left _ hj)
  | .ifElse k cv c t e, loop, seen, s, hs, hr, hq => by
    rw [Ana.stmt.eq_def]
    simp only [okS, Bool.and_eq_true, decide_eq_true_eq] at hq
    refine Safe.bind (condition_safe hT (haf seen) hs hr.2.1 hq.1.1) fun _ _ _ hs => ?_
    refine Safe.bind (stmt_safe hT haf t hs hr.2.2.1 hq.1.2) fun _ _ _ hs => ?_
    have hs := hs.less (seen' := seen) (by simp_all)
    exact Safe.bind (stmt_safe hT haf e hs hr.2.2.2 hq.2) fun _ _ _ hs => .pure (hs.less fun j hj => by simp only [declares, List.append_nil] at hj; exact List.mem_append_left _ hj)
  | .while_ k cv c b, loop, seen, s, hs, hr, hq => by
    rw [Ana.stmt.eq_def]
    simp only [okS, Bool.and_eq_true, decide_eq_true_eq] at hq
    refine Safe.bind (condition_safe hT (haf seen) hs hr.2.1 hq.1) fun _ _ _ hs => ?_
    exact Safe.bind (stmt_safe hT haf b hs hr.2.2 hq.2) fun _ _ _ hs => .pure (hs.less fun j hj => by simp only [declares, List.append_nil] at hj; exact List.mem_append_left _ hj)
  | .control k cv c e, loop, seen, s, hs, hr, hq => by
    rw [Ana.stmt.eq_def]
    have e0 : seen ++ declares (.control k cv c e) = seen := by simp [declares]
    rw [e0]
    rw [okS.eq_def] at hq
    cases c with
    | break_ =>
      have hl : loop = true := by cases e <;> exact hq
      exact .ite (fun _ => .pure hs) fun h => absurd hl h
    | continue_ =>
      have hl : loop = true := by cases e <;> exact hq
      exact .ite (fun _ => .pure hs) fun h => absurd hl h
    | return_ =>
      cases e with
      | none => exact .ite (fun h => absurd (of_decide_eq_true hq) h) fun _ => .pure hs
      | some e =>
        refine Safe.bind (fits_safe hT (haf seen) hs (hr.2.2 e rfl) hq) fun e' s1 _ h => ?_
        obtain ⟨hs, v, hv, hc⟩ := h
        rw [hv]
        refine .value_bind fun _ h => ?_
        cases h
        refine .ite (fun h => absurd hc h) fun _ => ?_
        exact .fold_bind (.inl rfl) fun w hw => .pure hs
  | .assign k cv name ref e, loop, seen, s, hs, hr, hq => by
    rw [Ana.stmt.eq_def]
    have e0 : seen ++ declares (.assign k cv name ref e) = seen := by simp [declares]
    rw [e0]
    rw [okS.eq_def] at hq
    cases ref with
    | none => cases hq
    | some r =>
      cases r with
      | builtin f => cases hq
      | param p => cases hq
      | node j =>
        simp only [Bool.and_eq_true, List.contains_iff_mem] at hq
        obtain ⟨⟨hj, hk⟩, hq⟩ := hq
        cases hv : T.var j with
        | none => simp [hv] at hq
        | some t =>
          simp only [hv] at hq
          refine .read_bind ?_
          simp only [hs.none j _ hk, (hs.lets j hj hk t hv).1]
          refine Safe.bind (fits_safe hT (haf seen) hs hr.2 hq) fun e' s1 _ h => ?_
          obtain ⟨hs, v, hv', hc⟩ := h
          rw [hv']
          refine .value_bind fun _ h => ?_
          cases h
          refine .read_bind ?_
          rw [(hs.lets j hj hk t hv).1]
          refine .value_bind fun _ h => ?_
          cases h
          refine .value_bind fun _ h => ?_
          cases h
          refine .ite (fun h => absurd hc h) fun _ => ?_
          exact .fold_bind (.inl rfl) fun w hw => .pure hs
  | .block k cv ss, loop, seen, s, hs, hr, hq => by
    rw [Ana.stmt.eq_def]
    rw [okS] at hq
    exact Safe.bind (stmts_safe hT haf ss hs hr.2 hq) fun _ _ _ hs => .pure (hs.less (by simp [declares]))
  | .call e, loop, seen, s, hs, hr, hq => by
    rw [Ana.stmt.eq_def]
    rw [okS] at hq
    obtain ⟨t, ht⟩ := Option.isSome_iff_exists.1 hq
    cases e with
    | call k cv st name ref args =>
      exact Safe.bind (typeCall_safe hT (haf seen) args hs hr.2.2 ht) fun _ _ _ h => .pure (by simpa [declares] using h.1)
    | _ => exact hr.elim

theorem stmts_safe (hT : StaticOk T) {self : Key} (haf : ∀ seen, AfSafe T S [self] own seen af) {ret : CType} : (ss : List AStmt) →
    {loop : Bool} → {seen : List Key} → {s : ASt} → TypedSt T S [self] own seen s → RawSs ss →
    okSs T self own ret loop seen ss = true →
    Safe (fun _ => TypedSt T S [self] own seen) (Ana.stmts n af ret .full loop ss) s
  | [], loop, seen, s, hs, hr, hq => by
    rw [Ana.stmts.eq_def]
    exact .pure hs
  | t :: ss, loop, seen, s, hs, hr, hq => by
    rw [Ana.stmts.eq_def]
    simp only [okSs, Bool.and_eq_true] at hq
    refine Safe.bind (stmt_safe hT haf t hs hr.1 hq.1) fun _ _ _ hs => ?_
    exact Safe.bind (stmts_safe hT haf ss hs hr.2 hq.2) fun _ _ _ hs => .pure (hs.less fun j hj => by simp [hj])

end

/-! ## Functions -/

theorem updateFn_safe {k : Key} {g : AFn → AFn} {s : ASt} {f : AFn} (hf : s.fns k = some f) {P : Unit → ASt → Prop}
    (h : P () (s.setFn k (g f))) : Safe P (Ana.updateFn k g) s := by
  unfold Ana.updateFn
  refine .read_bind ?_
  rw [hf]
  refine .value_bind fun _ h' => ?_
  cases h'
  exact .modify h

/-- Parameters that have got their types. -/
def OwnDone (T : Typing) (ps : List Key) (s : ASt) : Prop :=
  ∀ p ∈ ps, ∀ t, T.var p = some t → t.WF ∧ s.decl p = some ⟨.param, some (Value.unknownOf t)⟩

theorem level_of {k : Key} {f : AFn} {s : ASt} (hs : TypedSt T S X own seen s) (hf : s.fns k = some f) (h : k ∈ S) : 1 ≤ f.level.rank := by
  obtain ⟨f', hf', hl⟩ := hs.self k h
  rw [hf] at hf'
  cases hf'
  exact hl

theorem forall₂_append {α β : Type} {R : α → β → Prop} : {as as' : List α} → {bs bs' : List β} → List.Forall₂ R as bs →
    List.Forall₂ R as' bs' → List.Forall₂ R (as ++ as') (bs ++ bs')
  | [], _, _, _, .nil, h' => h'
  | _ :: _, _, _, _, .cons h hs, h' => .cons h (forall₂_append hs h')

theorem params_safe (hT : StaticOk T) {src : AFn} (hsrc : src ∈ T.fns) : (ps : List AParam) → {done qs qs' : List AParam} →
    {us us' : List CType} → {s : ASt} → {f : AFn} →
    TypedSt T S X own seen s → s.fns src.k = some f → f.params = done ++ ps → src.params = qs ++ qs' →
    List.Forall₂ (fun (p q : AParam) => p.k = q.k ∧ TypeDone T q.type p.type) done qs →
    List.Forall₂ (fun (p : AParam) u => SigC p.type u) done us →
    List.Forall₂ (fun (p q : AParam) => p.k = q.k ∧ TypeAt T q.type p.type) ps qs' →
    List.Forall₂ (fun (q : AParam) u => valueT T seen q.type = some u) qs' us' →
    OwnDone T (qs.map AParam.k) s →
    Safe (fun _ s' => TypedSt T S X own seen s' ∧ OwnDone T (src.params.map AParam.k) s' ∧
      ∃ ps', s'.fns src.k = some { f with params := ps' } ∧
        List.Forall₂ (fun (p q : AParam) => p.k = q.k ∧ TypeDone T q.type p.type) ps' src.params ∧
        List.Forall₂ (fun (p : AParam) u => SigC p.type u) ps' (us ++ us')) (Ana.params n af src.k done ps) s
  | [], done, qs, qs', us, us', s, f, hs, hf, hp, hq, hd, hu, hr, hv, ho => by
    cases hr
    cases hv
    rw [Ana.params]
    simp only [List.append_nil] at hp hq ⊢
    refine .pure ⟨hs, hq ▸ ho, done, ?_, hq ▸ hd, hu⟩
    rw [hf, ← hp]
  | p :: ps, done, qs, q :: qs', us, [], s, f, hs, hf, hp, hq, hd, hu, hr, hv, ho => by cases hv
  | p :: ps, done, qs, [], us, us', s, f, hs, hf, hp, hq, hd, hu, hr, hv, ho => by cases hr
  | p :: ps, done, qs, q :: qs', us, t :: us', s, f, hs, hf, hp, hq, hd, hu, hr, hv, ho => by
    rw [List.forall₂_cons] at hr hv
    obtain ⟨⟨h1, h2⟩, hr⟩ := hr
    obtain ⟨h3, hv⟩ := hv
    rw [Ana.params]
    have hqm : q ∈ src.params := by simp [hq]
    obtain ⟨src', hsrc', hk, hof⟩ := hs.fns src.k f hf
    cases hT.unique src' hsrc' src hsrc hk
    refine Safe.bind (type_safe hs.vals ((hT.raw src hsrc).params q hqm).1 h2 h3) fun ty _ _ h => ?_
    obtain ⟨rfl, ht⟩ := h
    have hct := (valueT_iff.1 h3).1
    have hvar := hT.vars src hsrc q hqm t hct
    have hdone : List.Forall₂ (fun (p q : AParam) => p.k = q.k ∧ TypeDone T q.type p.type) (done ++ [{ p with type := ty }]) (qs ++ [q]) :=
      forall₂_append hd (.cons ⟨h1, t, hct, ht⟩ .nil)
    have hsigs : List.Forall₂ (fun (p : AParam) u => SigC p.type u) (done ++ [{ p with type := ty }]) (us ++ [t]) :=
      forall₂_append hu (.cons ht .nil)
    have hall : List.Forall₂ (fun (p q : AParam) => p.k = q.k ∧ TypeAt T q.type p.type) (done ++ { p with type := ty } :: ps) src.params := by
      rw [hq]
      exact forall₂_append (hd.imp fun _ _ h => ⟨h.1, .inr h.2⟩) (.cons ⟨h1, .inr ⟨t, hct, ht⟩⟩ hr)
    have hfc : FnOf T X src { f with params := done ++ { p with type := ty } :: ps } := by
      refine ⟨hof.key, hof.plain, hall, hof.ret, hof.req, hof.body, hof.reqs, fun hl => ?_⟩
      obtain ⟨d1, d2, d3⟩ := hof.done hl
      refine ⟨?_, d2, d3⟩
      rw [hq]
      rw [hp, hq] at d1
      have hlen : done.length = qs.length := hd.length_eq
      have d1' : List.Forall₂ (fun (p q : AParam) => TypeDone T q.type p.type) (p :: ps) (q :: qs') := by
        have := List.forall₂_drop done.length d1
        rwa [List.drop_left, hlen, List.drop_left] at this
      refine forall₂_append (hd.imp fun _ _ h => h.2) (.cons ⟨t, hct, ht⟩ ?_)
      cases d1' with
      | cons _ h => exact h
    refine Safe.bind (P := fun _ s' => s' = s.setFn src.k { f with params := done ++ { p with type := ty } :: ps })
      (updateFn_safe hf rfl) fun _ _ _ h => ?_
    subst h
    have hs1 := hs.fn hf hsrc rfl hfc (fun _ _ h => h) fun h => show 1 ≤ f.level.rank from level_of hs hf h
    refine .modify_bind ?_
    rw [ht.1]
    have hs2 := hs1.param (p := p.k) ht.2.2 (h1 ▸ hT.keys src hsrc q hqm) (h1 ▸ hvar)
    refine (params_safe hT hsrc ps (done := done ++ [{ p with type := ty }]) (qs := qs ++ [q]) (us := us ++ [t]) hs2 (setFn_same s src.k _)
      (by simp) (by simp [hq]) hdone hsigs hr hv fun r hm u hu => ?_).mono fun _ s' _ h => ?_
    · by_cases e : r = q.k
      · subst e
        rw [hvar] at hu
        cases hu
        exact ⟨ht.2.2, by simp [ASt.setDecl, h1]⟩
      · have hm : r ∈ qs.map AParam.k := by
          simp only [List.map_append, List.map_cons, List.map_nil, List.mem_append, List.mem_singleton] at hm
          exact hm.resolve_right e
        obtain ⟨w, hd⟩ := ho r hm u hu
        exact ⟨w, by simpa [ASt.setDecl, ASt.setFn, h1, e] using hd⟩
    · obtain ⟨h1, h2, ps', h3, h4, h5⟩ := h
      exact ⟨h1, h2, ps', h3, h4, by simpa using h5⟩

/-- A function whose signature and requires-clause have been analyzed. -/
structure SignedFn (T : Typing) (src f g : AFn) (ret : AType) (us : List CType) (t : CType) : Prop where
  level : g.level = f.level
  params : List.Forall₂ (fun (p q : AParam) => p.k = q.k ∧ TypeDone T q.type p.type) g.params src.params
  sigs : List.Forall₂ (fun (p : AParam) u => SigC p.type u) g.params us
  type : g.ret = ret
  sig : SigC ret t
  reqs : ∀ e ∈ g.requires_, ∃ v, e.cv = some v

theorem requires_safe (hT : StaticOk T) {src : AFn} (hsrc : src ∈ T.fns) {f g : AFn} {ret : AType} {e : AExpr} {s : ASt} {us : List CType} {t : CType}
    (hs : TypedSt T S X own seen s) (hsg : HasSig T seen src us t) (hg : s.fns src.k = some g) (he : g.requires_ = some e)
    (h1 : g.level = f.level) (h2 : List.Forall₂ (fun (p q : AParam) => p.k = q.k ∧ TypeDone T q.type p.type) g.params src.params)
    (h3 : List.Forall₂ (fun (p : AParam) u => SigC p.type u) g.params us) (h4 : g.ret = ret) (h5 : SigC ret t) :
    Safe (fun _ s' => TypedSt T S X own seen s' ∧ s'.decl = s.decl ∧ ∃ g', s'.fns src.k = some g' ∧ SignedFn T src f g' ret us t)
      (Ana.requires_ n af src.k e) s := by
  unfold Ana.requires_
  obtain ⟨src', hsrc', hk, hof⟩ := hs.fns src.k g hg
  cases hT.unique src' hsrc' src hsrc hk
  cases hc : e.cv with
  | some v =>
    refine .pure ⟨hs, rfl, g, hg, h1, h2, h3, h4, h5, fun x hx => ?_⟩
    rw [he] at hx
    cases hx
    exact ⟨v, hc⟩
  | none =>
    have hreq : src.requires_ = some e := by
      rcases hof.req e he with h | ⟨v, hv⟩
      · exact h
      · rw [hc] at hv
        cases hv
    have h0 : ¬ 1 ≤ g.level.rank := fun h => by
      obtain ⟨v, hv⟩ := hof.reqs h e he
      rw [hc] at hv
      cases hv
    have hval := hsg.req e hreq
    refine Safe.bind (valueE_safe hs.vals ((hT.raw src hsrc).reqs e hreq) hval _ _) fun e' _ _ h => ?_
    obtain ⟨rfl, hcv, hw⟩ := h
    refine Safe.bind (P := fun _ s' => s' = s.setFn src.k { g with requires_ := some e', cv := e'.cv })
      (updateFn_safe hg rfl) fun _ _ _ h => ?_
    subst h
    have hrs : ∀ x ∈ some e', ∃ v, x.cv = some v := fun x hx => by
      cases hx
      exact ⟨_, hcv⟩
    have hfc : FnOf T X src { g with requires_ := some e', cv := e'.cv } :=
      ⟨hof.key, hof.plain, hof.params, hof.ret, fun x hx => .inr (hrs x hx), hof.body, fun h => absurd h h0, fun h => absurd h h0⟩
    have hs1 := hs.fn hg hsrc rfl hfc (fun _ _ h => h) fun h => show 1 ≤ g.level.rank from level_of hs hg h
    refine .assert_bind fun _ => ?_
    rw [show e'.cv = some (Value.known (CVal.ofBool true)) from hcv] at hs1 ⊢
    refine .deref_bind fun _ h => ?_
    cases h
    refine .ite (fun h => absurd rfl h) fun hb => ?_
    refine .get_bind (fun e h => by cases h) fun b h => ?_
    cases h
    refine .ite (fun h => absurd rfl h) fun _ => ?_
    exact .pure ⟨hs1, rfl, _, setFn_same _ _ _, h1, h2, h3, h4, h5, hrs⟩

end

section

variable {T : Typing} {S X own seen : List Key} {n : Nat}

/-- The signature of a function; then the rest. -/
theorem signature_safe (hT : StaticOk T) {src : AFn} (hsrc : src ∈ T.fns) {us : List CType} {t : CType} (hsg : HasSig T seen src us t)
    {level : Level} {s : ASt} {f : AFn} (hs : TypedSt T S X own seen s) (hf : s.fns src.k = some f)
    (hlev : f.level.rank < level.rank) {P : Unit → ASt → Prop}
    (hrest : ∀ s' g ret, TypedSt T S X own seen s' → s'.fns src.k = some g → SignedFn T src f g ret us t →
      OwnDone T (src.params.map AParam.k) s' → Safe P (afterSignature n src.k level f ret) s') :
    Safe P (Ana.function (n + 1) src.k level) s := by
  rw [Ana.function]
  obtain ⟨src', hsrc', hk, hof⟩ := hs.fns src.k f hf
  cases hT.unique src' hsrc' src hsrc hk
  refine .assert_bind fun _ => ?_
  refine .read_bind ?_
  rw [hf]
  refine .value_bind fun _ h => ?_
  cases h
  rw [if_neg (Nat.not_le.2 hlev), if_neg (by simp [hof.plain, hsg.plain])]
  refine .assert_bind fun _ => ?_
  refine Safe.bind (params_safe hT hsrc f.params (done := []) (qs := []) (us := []) hs hf rfl rfl .nil .nil hof.params hsg.params
    fun _ h => absurd h List.not_mem_nil) fun _ s1 _ h => ?_
  obtain ⟨hs1, hown, ps, hg, hps, hsigs⟩ := h
  obtain ⟨src', hsrc', hk, hog⟩ := hs1.fns src.k _ hg
  cases hT.unique src' hsrc' src hsrc hk
  have hret : TypeAt T src.ret f.ret := hog.ret
  refine Safe.bind (type_safe hs1.vals (hT.raw src hsrc).ret.1 hret hsg.ret) fun ret _ _ h => ?_
  obtain ⟨rfl, ht⟩ := h
  have hct := (valueT_iff.1 hsg.ret).1
  refine Safe.bind (P := fun _ s' => s' = s1.setFn src.k { f with params := ps, ret := ret }) (updateFn_safe hg rfl) fun _ _ _ h => ?_
  subst h
  have hfc : FnOf T X src { f with params := ps, ret := ret } :=
    ⟨hog.key, hog.plain, hog.params, .inr ⟨t, hct, ht⟩, hog.req, hog.body, hog.reqs, fun h => by
      obtain ⟨h1, -, h3⟩ := hog.done h
      exact ⟨h1, ⟨t, hct, ht⟩, h3⟩⟩
  have hs2 := hs1.fn hg hsrc rfl hfc (fun _ _ h => h) fun h => by
    have := level_of hs1 hg h
    exact this
  have ho2 : OwnDone T (src.params.map AParam.k) (s1.setFn src.k { f with params := ps, ret := ret }) := hown
  have hg2 := setFn_same s1 src.k { f with params := ps, ret := ret }
  generalize s1.setFn src.k { f with params := ps, ret := ret } = s2 at hs2 hg2 ho2
  refine .modify_bind ?_
  have hs3 : TypedSt T S X own seen { s2 with stack := src.k :: s2.stack } := hs2.same rfl rfl
  have ho3 : OwnDone T (src.params.map AParam.k) { s2 with stack := src.k :: s2.stack } := ho2
  have hg3 : ({ s2 with stack := src.k :: s2.stack } : ASt).fns src.k = some { f with params := ps, ret := ret } := hg2
  generalize ({ s2 with stack := src.k :: s2.stack } : ASt) = s3 at hs3 hg3 ho3
  cases hreq : f.requires_ with
  | none => exact hrest s3 _ ret hs3 hg3 ⟨rfl, hps, hsigs, rfl, ht, by simp [hreq]⟩ ho3
  | some e =>
    refine Safe.bind (requires_safe (f := f) hT hsrc hs3 hsg hg3 hreq rfl hps hsigs rfl ht) fun _ s4 _ h => ?_
    obtain ⟨hs4, hd, g', hg', hr⟩ := h
    exact hrest s4 g' ret hs4 hg' hr fun p hp => by rw [hd]; exact ho3 p hp

theorem signed_of {src f : AFn} (hof : FnOf T X src f) (hX : src.k ∉ X) (hl : 1 ≤ f.level.rank) {us : List CType} {t : CType}
    (hsg : HasSig T seen src us t) : SignedAs us t f := by
  obtain ⟨h1, -, h3⟩ := hof.done hl
  obtain ⟨v, hv, hvt, hw⟩ := h3.resolve_left hX
  rw [(valueT_iff.1 hsg.ret).1] at hvt
  injection hvt with hvt
  refine ⟨?_, v, hv, hvt.symm, hvt ▸ hw⟩
  have h2 := hsg.params
  clear hsg hv hvt hw h3 hof
  generalize f.params = ps at h1
  generalize src.params = qs at h1 h2
  induction h1 generalizing us with
  | nil => cases h2; exact .nil
  | cons h _ ih =>
    cases h2 with
    | cons h' h2 =>
      obtain ⟨u, hu, hsig⟩ := h
      rw [(valueT_iff.1 h').1] at hu
      cases hu
      exact .cons hsig (ih h2)

/-- Calls only analyze signatures. -/
theorem afSafe (hT : StaticOk T) (n : Nat) : AfSafe T S X own seen (Ana.function (n + 1)) := by
  intro src s us t hs hsrc hsg hX
  obtain ⟨f, hf⟩ := Option.isSome_iff_exists.1 (hs.has src hsrc)
  by_cases hlev : Level.shallow.rank ≤ f.level.rank
  · rw [Ana.function]
    refine .assert_bind fun _ => ?_
    refine .read_bind ?_
    rw [hf]
    refine .value_bind fun _ h => ?_
    cases h
    rw [if_pos hlev]
    refine .pure ⟨hs, fun f' hf' => ?_⟩
    rw [hf] at hf'
    cases hf'
    obtain ⟨src', hsrc', hk, hof⟩ := hs.fns src.k f hf
    cases hT.unique src' hsrc' src hsrc hk
    exact signed_of hof hX hlev hsg
  · refine signature_safe hT hsrc hsg hs hf (Nat.lt_of_not_le hlev) fun s' g ret hs hg hr _ => ?_
    unfold afterSignature
    have h0 : f.level.rank < 1 := Nat.lt_of_not_le hlev
    obtain ⟨src', hsrc', hk, hog⟩ := hs.fns src.k g hg
    cases hT.unique src' hsrc' src hsrc hk
    have hS : src.k ∉ S := fun hm => by
      have := level_of hs hg hm
      rw [hr.level] at this
      exact absurd this (Nat.not_le.2 h0)
    have ht := hr.sig
    have hct := (valueT_iff.1 hsg.ret).1
    refine Safe.bind (P := fun _ s'' => ∃ l, s'' = s'.setFn src.k { g with level := l }) (updateFn_safe hg ⟨_, rfl⟩) fun _ _ _ h => ?_
    obtain ⟨l, rfl⟩ := h
    rw [if_neg (by decide)]
    simp only [show Level.shallow ≠ .forConst by decide, if_false]
    refine Safe.bind (P := fun _ s'' => s'' = s'.setFn src.k { g with cv := ret.cv, level := .shallow })
      (updateFn_safe (setFn_same _ _ _) ?_) fun _ _ _ h => ?_
    · rw [setFn_setFn]
    subst h
    have hval : ∃ v, ret.cv = some v ∧ constT T.names src.ret = .ok v.type ∧ v.type.WF := ⟨_, ht.1, hct, ht.2.2⟩
    have hfc : FnOf T X src { g with cv := ret.cv, level := .shallow } := by
      refine ⟨hog.key, hog.plain, hog.params, hog.ret, hog.req, fun _ => ?_, fun _ => hr.reqs, fun _ => ?_⟩
      · exact hog.body (by rw [hr.level]; exact Nat.lt_trans h0 (by decide))
      · refine ⟨hr.params.imp fun _ _ h => h.2, ?_, .inr hval⟩
        show TypeDone T src.ret g.ret
        rw [hr.type]
        exact ⟨t, hct, ht⟩
    have hs1 := hs.fn hg hsrc rfl hfc (fun _ _ h => h) fun hm => absurd hm hS
    refine .modify ⟨hs1.same rfl rfl, fun f' hf' => ?_⟩
    have hf' : (s'.setFn src.k { g with cv := ret.cv, level := .shallow }).fns src.k = some f' := hf'
    rw [setFn_same] at hf'
    cases hf'
    exact ⟨hr.sigs, _, ht.1, rfl, ht.2.2⟩

/-- Analysis of well-typed functions reports no error. -/
theorem function_safe (hT : StaticOk T) (n : Nat) {src : AFn} (hsrc : src ∈ T.fns) {s : ASt} (hs : TypedSt T [] [] [] seen s)
    (hok : okF T seen src = true) : Safe (fun _ => TypedSt T [] [] [] seen) (Ana.function (n + 2) src.k .full) s := by
  unfold okF at hok
  cases hsig : signatureOf T seen src.k with
  | none => simp [hsig] at hok
  | some p =>
    obtain ⟨us, t⟩ := p
    simp only [hsig, Bool.and_eq_true] at hok
    obtain ⟨src', hsrc', hk, hsg⟩ := signatureOf_iff hsig
    cases hT.unique src' hsrc' src hsrc hk
    obtain ⟨f, hf⟩ := Option.isSome_iff_exists.1 (hs.has src hsrc)
    by_cases hlev : Level.full.rank ≤ f.level.rank
    · rw [Ana.function]
      refine .assert_bind fun _ => ?_
      refine .read_bind ?_
      rw [hf]
      refine .value_bind fun _ h => ?_
      cases h
      rw [if_pos hlev]
      exact .pure hs
    · obtain ⟨src', hsrc', hk, hof⟩ := hs.fns src.k f hf
      cases hT.unique src' hsrc' src hsrc hk
      refine signature_safe hT hsrc hsg hs hf (Nat.lt_of_not_le hlev) fun s' g ret hs hg hr hown => ?_
      unfold afterSignature
      have h0 : f.level.rank < 2 := Nat.lt_of_not_le hlev
      obtain ⟨src', hsrc', hk, hog⟩ := hs.fns src.k g hg
      cases hT.unique src' hsrc' src hsrc hk
      have ht := hr.sig
      have hct := (valueT_iff.1 hsg.ret).1
      have hlv : 1 ≤ (if g.level = .unanalyzed then Level.shallow else g.level).rank ∧
          (if g.level = .unanalyzed then Level.shallow else g.level).rank < 2 := by
        have h2 : g.level.rank < 2 := hr.level ▸ h0
        revert h2
        cases g.level <;> simp [Level.rank]
      generalize hle : (if g.level = .unanalyzed then Level.shallow else g.level) = l at hlv
      refine Safe.bind (P := fun _ s'' => s'' = s'.setFn src.k { g with level := l })
        (updateFn_safe hg (by rw [hle])) fun _ _ _ h => ?_
      subst h
      have hdone : TypeDone T src.ret g.ret := by
        rw [hr.type]
        exact ⟨t, hct, ht⟩
      have hfc : FnOf T [src.k] src { g with level := l } :=
        ⟨hog.key, hog.plain, hog.params, hog.ret, hog.req, fun _ => hog.body (hr.level ▸ h0), fun _ => hr.reqs,
          fun _ => ⟨hr.params.imp fun _ _ h => h.2, hdone, .inl (by simp)⟩⟩
      have hs1 : TypedSt T [] [src.k] [] seen (s'.setFn src.k { g with level := l }) :=
        hs.fn hg hsrc rfl hfc (fun _ _ h => by cases h) fun h => by cases h
      have hs2 : TypedSt T [src.k] [src.k] (src.params.map AParam.k) seen (s'.setFn src.k { g with level := l }) := by
        refine ⟨hs1.none, hs1.vals, hs1.lets, hown, fun p hp a => ?_, hs1.fns, hs1.has, fun j hj => ?_⟩
        · obtain ⟨q, hm, rfl⟩ := List.mem_map.1 hp
          exact hT.keys src hsrc q hm a
        · rw [List.mem_singleton] at hj
          subst hj
          exact ⟨_, setFn_same _ _ _, hlv.1⟩
      rw [if_pos (by decide)]
      simp only [show Level.full ≠ .forConst by decide, if_false]
      generalize s'.setFn src.k { g with level := l } = s2 at hs2
      rw [ht.2.1]
      refine .get_bind (fun _ h => by cases h) fun _ h => ?_
      cases h
      refine .value_bind fun _ h => ?_
      cases h
      have hbody : f.body = src.body := hof.body h0
      rw [hbody]
      refine Safe.bind (stmts_safe hT (fun seen => afSafe hT n) src.body hs2 (hT.raw src hsrc).body hok.2) fun body s3 _ hs3 => ?_
      obtain ⟨g3, hg3, hl3⟩ := hs3.self src.k (by simp)
      obtain ⟨src', hsrc', hk, hog3⟩ := hs3.fns src.k g3 hg3
      cases hT.unique src' hsrc' src hsrc hk
      refine Safe.bind (P := fun _ s'' => s'' = s3.setFn src.k { g3 with body := body }) (updateFn_safe hg3 rfl) fun _ _ _ h => ?_
      subst h
      refine Safe.bind (P := fun _ s'' => s'' = s3.setFn src.k { g3 with body := body, cv := ret.cv, level := .full })
        (updateFn_safe (setFn_same _ _ _) ?_) fun _ _ _ h => ?_
      · rw [setFn_setFn]
      subst h
      have hval : ∃ v, ret.cv = some v ∧ constT T.names src.ret = .ok v.type ∧ v.type.WF := ⟨_, ht.1, hct, ht.2.2⟩
      have hfc3 : FnOf T [] src { g3 with body := body, cv := ret.cv, level := .full } := by
        obtain ⟨d1, d2, -⟩ := hog3.done hl3
        exact ⟨hog3.key, hog3.plain, hog3.params, hog3.ret, hog3.req, fun h => absurd h (by show ¬ 2 < 2; decide),
          fun _ => hog3.reqs hl3, fun _ => ⟨d1, d2, .inr hval⟩⟩
      have hs4 : TypedSt T [src.k] [] (src.params.map AParam.k) _ (s3.setFn src.k { g3 with body := body, cv := ret.cv, level := .full }) :=
        hs3.fn hg3 hsrc rfl hfc3 (fun j hj h => absurd (List.mem_singleton.1 h) hj) fun _ => (by decide : 1 ≤ Level.full.rank)
      have hs4 := hs4.same (s' := { s3.setFn src.k { g3 with body := body, cv := ret.cv, level := .full } with
        stack := (s3.setFn src.k { g3 with body := body, cv := ret.cv, level := .full }).stack.tail }) rfl rfl
      exact .modify ⟨hs4.none, hs4.vals, hs4.lets, fun _ h => (by cases h), fun _ h => (by cases h), hs4.fns, hs4.has, fun _ h => (by cases h)⟩

/-! ## Programs -/

theorem decls_safe (hT : StaticOk T) (n : Nat) : (ds : List ADecl) → {seen : List Key} → {s : ASt} → TypedSt T [] [] [] seen s →
    (∀ d ∈ ds, RawD d) → (∀ f, ADecl.function f ∈ ds → f ∈ T.fns) → okDs T seen ds = true →
    Safe (fun _ _ => True) (Ana.decls (n + 2) ds) s
  | [], seen, s, hs, _, _, _ => by
    rw [Ana.decls]
    exact .pure trivial
  | .const_ k cv name ty init :: ds, seen, s, hs, hr, hf, hq => by
    rw [Ana.decls]
    simp only [okDs, okConst, Bool.and_eq_true, decide_eq_true_eq, List.contains_iff_mem] at hq
    obtain ⟨⟨⟨hk, h1⟩, h2⟩, hq⟩ := hq
    obtain ⟨c, hc⟩ := Option.isSome_iff_exists.1 h1
    rw [hc] at h2
    obtain ⟨rfl, ht, hi⟩ := hr _ (List.mem_cons_self ..)
    refine Safe.bind (P := fun _ => TypedSt T [] [] [] (seen ++ [k])) ?_ fun _ s' _ hs => decls_safe hT n ds hs
      (fun d hd => hr d (by simp [hd])) (fun f hd => hf f (by simp [hd])) hq
    refine Safe.bind (const_safe hs.vals ht hi hc) fun r _ _ h => ?_
    obtain ⟨rfl, hv, hw⟩ := h
    obtain ⟨v, ty', init'⟩ := r
    simp only at hv
    subst hv
    exact .modify (hs.const hT hw h2 hk)
  | .staticAssert k cv e :: ds, seen, s, hs, hr, hf, hq => by
    rw [Ana.decls]
    simp only [okDs, Bool.and_eq_true, decide_eq_true_eq] at hq
    obtain ⟨rfl, hi⟩ := hr _ (List.mem_cons_self ..)
    refine Safe.bind (P := fun _ => TypedSt T [] [] [] seen) ?_ fun _ s' _ hs => decls_safe hT n ds hs
      (fun d hd => hr d (by simp [hd])) (fun f hd => hf f (by simp [hd])) hq.2
    refine Safe.bind (staticAssert_safe hs.vals hi hq.1) fun r _ _ h => ?_
    subst h
    exact .pure hs
  | .function f :: ds, seen, s, hs, hr, hf, hq => by
    rw [Ana.decls]
    simp only [okDs, Bool.and_eq_true] at hq
    refine Safe.bind (P := fun _ => TypedSt T [] [] [] seen) ?_ fun _ s' _ hs => decls_safe hT n ds hs
      (fun d hd => hr d (by simp [hd])) (fun f hd => hf f (by simp [hd])) hq.2
    exact function_safe hT n (hf f (by simp)) hs hq.1

end

end Bms
