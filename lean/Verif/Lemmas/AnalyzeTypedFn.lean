import Verif.Lemmas.AnalyzeTyped

/-!
# Analysis of expressions in well-typed functions reports no error
-/

namespace Bms

open Spec

/-- A type node of the program, before or after its analysis. -/
def TypeAt (T : Typing) (src ty : AType) : Prop := ty = src ∨ ∃ t, constT T.names src = .ok t ∧ SigC ty t

/-- A type node after its analysis. -/
def TypeDone (T : Typing) (src ty : AType) : Prop := ∃ t, constT T.names src = .ok t ∧ SigC ty t

/-- A function of the program, at some time during analysis. Functions in `X` are being analyzed. -/
structure FnOf (T : Typing) (X : List Key) (src f : AFn) : Prop where
  key : f.k = src.k
  plain : f.generic = src.generic
  params : List.Forall₂ (fun (p q : AParam) => p.k = q.k ∧ TypeAt T q.type p.type) f.params src.params
  ret : TypeAt T src.ret f.ret
  req : ∀ e ∈ f.requires_, src.requires_ = some e ∨ ∃ v, e.cv = some v
  body : f.level.rank < 2 → f.body = src.body
  reqs : 1 ≤ f.level.rank → ∀ e ∈ f.requires_, ∃ v, e.cv = some v
  done : 1 ≤ f.level.rank → List.Forall₂ (fun (p q : AParam) => TypeDone T q.type p.type) f.params src.params ∧
    TypeDone T src.ret f.ret ∧ (src.k ∈ X ∨ ∃ v, f.cv = some v ∧ constT T.names src.ret = .ok v.type ∧ v.type.WF)

theorem FnOf.mono {T : Typing} {X Y : List Key} {src f : AFn} (h : FnOf T X src f) (hXY : src.k ∈ X → src.k ∈ Y) : FnOf T Y src f :=
  ⟨h.key, h.plain, h.params, h.ret, h.req, h.body, h.reqs, fun hl => by
    obtain ⟨a, b, c⟩ := h.done hl
    exact ⟨a, b, c.imp hXY id⟩⟩

/-- What is known about the program: functions are not analyzed, names of parameters, variables and constants
are different, and parameters have the types that are assumed. -/
structure StaticOk (T : Typing) : Prop where
  raw : ∀ f ∈ T.fns, RawFn f
  keys : ∀ f ∈ T.fns, ∀ p ∈ f.params, ∀ a, (p.k, a) ∉ T.names.kinds
  vars : ∀ f ∈ T.fns, ∀ p ∈ f.params, ∀ t, constT T.names p.type = .ok t → T.var p.k = some t
  unique : ∀ f ∈ T.fns, ∀ g ∈ T.fns, f.k = g.k → f = g
  one : ∀ j, (j, DeclKind.const_) ∈ T.names.kinds → (j, DeclKind.let_) ∉ T.names.kinds

/-- The state during analysis of well-typed programs, in a function with parameters `own`, after the declarations
in `seen`. Signatures of functions in `S` are done. -/
structure TypedSt (T : Typing) (S X own seen : List Key) (s : ASt) : Prop where
  none : ∀ j a, (j, a) ∈ T.names.kinds → s.fns j = none
  vals : ValsOk T seen s
  lets : ∀ j ∈ seen, (j, DeclKind.let_) ∈ T.names.kinds → ∀ t, T.var j = some t →
    s.decl j = some ⟨.let_, some (Value.unknownOf t)⟩ ∧ t.WF
  params : ∀ p ∈ own, ∀ t, T.var p = some t → t.WF ∧ s.decl p = some ⟨.param, some (Value.unknownOf t)⟩
  ownKeys : ∀ p ∈ own, ∀ a, (p, a) ∉ T.names.kinds
  fns : ∀ j f, s.fns j = some f → ∃ src ∈ T.fns, src.k = j ∧ FnOf T X src f
  has : ∀ f ∈ T.fns, (s.fns f.k).isSome
  self : ∀ j ∈ S, ∃ f, s.fns j = some f ∧ 1 ≤ f.level.rank

theorem TypedSt.less {T : Typing} {S X own seen seen' : List Key} {s : ASt} (h : TypedSt T S X own seen s)
    (hs : ∀ j ∈ seen', j ∈ seen) : TypedSt T S X own seen' s :=
  ⟨h.none, fun j hj => h.vals j (hs j hj), fun j hj => h.lets j (hs j hj), h.params, h.ownKeys, h.fns, h.has, h.self⟩

/-- A function is replaced. -/
theorem TypedSt.fn {T : Typing} {S X Y own seen : List Key} {s : ASt} (h : TypedSt T S X own seen s) {k : Key} {f f' src : AFn}
    (hf : s.fns k = some f) (hsrc : src ∈ T.fns) (hk : src.k = k)
    (hf' : FnOf T Y src f') (hXY : ∀ j, j ≠ k → j ∈ X → j ∈ Y)
    (hlev : k ∈ S → 1 ≤ f'.level.rank) : TypedSt T S Y own seen (s.setFn k f') := by
  have hne : ∀ j, j ≠ k → (s.setFn k f').fns j = s.fns j := fun j e => by simp [ASt.setFn, e]
  have heq : (s.setFn k f').fns k = some f' := by simp [ASt.setFn]
  refine ⟨fun j a hm => ?_, fun j hj hc v hv => ?_, h.lets, h.params, h.ownKeys, fun j g hg => ?_, fun g hg => ?_, fun j hm => ?_⟩
  · have e : j ≠ k := by rintro rfl; rw [h.none j a hm] at hf; cases hf
    rw [hne j e]
    exact h.none j a hm
  · obtain ⟨h1, h2, h3⟩ := h.vals j hj hc v hv
    have e : j ≠ k := by rintro rfl; rw [h1] at hf; cases hf
    exact ⟨(hne j e).trans h1, h2, h3⟩
  · by_cases e : j = k
    · subst e
      rw [heq] at hg
      cases hg
      exact ⟨src, hsrc, hk, hf'⟩
    · rw [hne j e] at hg
      obtain ⟨g', h1, rfl, h3⟩ := h.fns j g hg
      exact ⟨g', h1, rfl, h3.mono (hXY _ e)⟩
  · by_cases e : g.k = k
    · rw [e, heq]
      rfl
    · rw [hne _ e]
      exact h.has g hg
  · by_cases e : j = k
    · subst e
      exact ⟨f', heq, hlev hm⟩
    · rw [hne j e]
      exact h.self j hm

/-- A change of the state that is not observed. -/
theorem TypedSt.same {T : Typing} {S X own seen : List Key} {s s' : ASt} (h : TypedSt T S X own seen s) (hd : s'.decl = s.decl)
    (hf : s'.fns = s.fns) : TypedSt T S X own seen s' := by
  refine ⟨?_, ?_, ?_, ?_, h.ownKeys, ?_, ?_, ?_⟩
  · rw [hf]; exact h.none
  · intro j hj hc v hv
    rw [hf, hd]; exact h.vals j hj hc v hv
  · rw [hd]; exact h.lets
  · rw [hd]; exact h.params
  · rw [hf]; exact h.fns
  · rw [hf]; exact h.has
  · rw [hf]; exact h.self

/-- A parameter gets its type. -/
theorem TypedSt.param {T : Typing} {S X own seen : List Key} {s : ASt} (h : TypedSt T S X own seen s) {p : Key} {t : CType} (ht : t.WF)
    (hp : ∀ a, (p, a) ∉ T.names.kinds) (hv : T.var p = some t) :
    TypedSt T S X own seen (s.setDecl p ⟨.param, some (Value.unknownOf t)⟩) := by
  have hne : ∀ j a, (j, a) ∈ T.names.kinds → (s.setDecl p ⟨.param, some (Value.unknownOf t)⟩).decl j = s.decl j := by
    intro j a hj
    have e : j ≠ p := by rintro rfl; exact hp a hj
    simp [ASt.setDecl, e]
  refine ⟨h.none, fun j hj hc v hv => ?_, fun j hj hc u hu => ?_, fun q hq u hu => ?_, h.ownKeys, h.fns, h.has, h.self⟩
  · rw [hne j _ hc]; exact h.vals j hj hc v hv
  · rw [hne j _ hc]; exact h.lets j hj hc u hu
  · by_cases e : q = p
    · subst e
      rw [hv] at hu
      cases hu
      exact ⟨ht, by simp [ASt.setDecl]⟩
    · obtain ⟨h1, h2⟩ := h.params q hq u hu
      exact ⟨h1, by simpa [ASt.setDecl, e] using h2⟩

/-- A constant gets its value. -/
theorem TypedSt.const {T : Typing} (hT : StaticOk T) {S X own seen : List Key} {s : ASt} (h : TypedSt T S X own seen s) {k : Key}
    {c : CVal} (hc : WF c) (hv : T.names.value k = some c) (hk : (k, .const_) ∈ T.names.kinds) :
    TypedSt T S X own (seen ++ [k]) (s.setDecl k ⟨.const_, some (Value.known c)⟩) := by
  refine ⟨h.none, fun j hj hc' v hv' => ?_, fun j hj hc' u hu => ?_, fun q hq u hu => ?_, h.ownKeys, h.fns, h.has, h.self⟩
  · by_cases e : j = k
    · subst e
      rw [hv] at hv'
      cases hv'
      exact ⟨h.none j _ hk, by simp [ASt.setDecl], hc⟩
    · have hj' : j ∈ seen := (List.mem_append.1 hj).resolve_right fun h => e (List.mem_singleton.1 h)
      obtain ⟨h1, h2, h3⟩ := h.vals j hj' hc' v hv'
      exact ⟨h1, by simpa [ASt.setDecl, e] using h2, h3⟩
  · have e : j ≠ k := by rintro rfl; exact hT.one j hk hc'
    have hj' : j ∈ seen := (List.mem_append.1 hj).resolve_right fun h => e (List.mem_singleton.1 h)
    simpa [ASt.setDecl, e] using h.lets j hj' hc' u hu
  · have e : q ≠ k := by rintro rfl; exact h.ownKeys q hq _ hk
    simpa [ASt.setDecl, e] using h.params q hq u hu

/-- A variable gets its type. -/
theorem TypedSt.let_ {T : Typing} (hT : StaticOk T) {S X own seen : List Key} {s : ASt} (h : TypedSt T S X own seen s) {k : Key}
    {t : CType} (ht : t.WF) (hv : T.var k = some t) (hk : (k, .let_) ∈ T.names.kinds) :
    TypedSt T S X own (seen ++ [k]) (s.setDecl k ⟨.let_, some (Value.unknownOf t)⟩) := by
  refine ⟨h.none, fun j hj hc' v hv' => ?_, fun j hj hc' u hu => ?_, fun q hq u hu => ?_, h.ownKeys, h.fns, h.has, h.self⟩
  · have e : j ≠ k := by rintro rfl; exact hT.one j hc' hk
    have hj' : j ∈ seen := (List.mem_append.1 hj).resolve_right fun h => e (List.mem_singleton.1 h)
    obtain ⟨h1, h2, h3⟩ := h.vals j hj' hc' v hv'
    exact ⟨h1, by simpa [ASt.setDecl, e] using h2, h3⟩
  · by_cases e : j = k
    · subst e
      rw [hv] at hu
      cases hu
      exact ⟨by simp [ASt.setDecl], ht⟩
    · have hj' : j ∈ seen := (List.mem_append.1 hj).resolve_right fun h => e (List.mem_singleton.1 h)
      simpa [ASt.setDecl, e] using h.lets j hj' hc' u hu
  · have e : q ≠ k := by rintro rfl; exact h.ownKeys q hq _ hk
    simpa [ASt.setDecl, e] using h.params q hq u hu

/-! ## Expressions outside of constant expressions -/

/-- What is known about the signature of a function. -/
structure HasSig (T : Typing) (seen : List Key) (src : AFn) (us : List CType) (t : CType) : Prop where
  plain : src.generic = false
  params : List.Forall₂ (fun (q : AParam) u => valueT T seen q.type = some u) src.params us
  ret : valueT T seen src.ret = some t
  req : ∀ e ∈ src.requires_, valueE T seen e = some (CVal.ofBool true)

theorem valueTs_iff {T : Typing} {seen : List Key} : {ps : List AParam} → {us : List CType} →
    valueTs T seen (ps.map AParam.type) = some us → List.Forall₂ (fun (q : AParam) u => valueT T seen q.type = some u) ps us
  | [], us, h => by
    simp only [List.map_nil, valueTs, Option.some.injEq] at h
    subst h
    exact .nil
  | p :: ps, us, h => by
    simp only [List.map_cons, valueTs] at h
    cases h1 : valueT T seen p.type with
    | none => simp [h1] at h
    | some u =>
      cases h2 : valueTs T seen (ps.map AParam.type) with
      | none => simp [h1, h2] at h
      | some vs =>
        simp only [h1, h2, Option.some.injEq] at h
        subst h
        exact .cons h1 (valueTs_iff h2)

theorem signatureOf_iff {T : Typing} {seen : List Key} {j : Key} {us : List CType} {t : CType}
    (h : signatureOf T seen j = some (us, t)) : ∃ src ∈ T.fns, src.k = j ∧ HasSig T seen src us t := by
  unfold signatureOf at h
  cases hf : T.fns.find? fun f => f.k = j with
  | none => simp [hf] at h
  | some src =>
    simp only [hf] at h
    refine ⟨src, List.mem_of_find?_eq_some hf, by simpa using List.find?_some hf, ?_⟩
    split at h
    · cases h
    · next hg =>
      simp only [Bool.or_eq_true, Bool.not_eq_true', not_or, Bool.not_eq_true, Bool.not_eq_false] at hg
      cases h1 : valueTs T seen (src.params.map AParam.type) with
      | none => simp [h1] at h
      | some vs =>
        cases h2 : valueT T seen src.ret with
        | none => simp [h1, h2] at h
        | some u =>
          simp only [h1, h2, Option.some.injEq, Prod.mk.injEq] at h
          obtain ⟨rfl, rfl⟩ := h
          refine ⟨hg.1, valueTs_iff h1, h2, fun e he => ?_⟩
          have := hg.2
          rw [Option.mem_def.1 he] at this
          simpa using this

/-- A function whose signature has been analyzed. -/
structure SignedAs (us : List CType) (t : CType) (f : AFn) : Prop where
  params : List.Forall₂ (fun (p : AParam) u => SigC p.type u) f.params us
  value : ∃ v, f.cv = some v ∧ v.type = t ∧ t.WF

/-- Calls report no error. -/
def AfSafe (T : Typing) (S X own seen : List Key) (af : Key → Level → AM Unit) : Prop :=
  ∀ src s us t, TypedSt T S X own seen s → src ∈ T.fns → HasSig T seen src us t → src.k ∉ X →
    Safe (fun _ s' => TypedSt T S X own seen s' ∧ ∀ f', s'.fns src.k = some f' → SignedAs us t f') (af src.k .shallow) s

/-- What is known about an argument after its analysis. -/
def Argument (a : AExpr) (t : CType) : Prop := ∃ v, a.cv = some v ∧ v.type = t ∧ VOk v

theorem convertible_iff : {ts us : List CType} → convertible ts us = true ↔ List.Forall₂ (fun (t : CType) u => t.isConvertibleTo u = true) ts us
  | [], [] => by simp [convertible]
  | [], _ :: _ => by simp [convertible]
  | _ :: _, [] => by simp [convertible]
  | t :: ts, u :: us => by
    simp only [convertible, Bool.and_eq_true, List.forall₂_cons, convertible_iff]

theorem passArgs_safe {k : Key} {s : ASt} : {as : List AExpr} → {ps : List AParam} → {ts us : List CType} →
    List.Forall₂ Argument as ts → List.Forall₂ (fun (p : AParam) u => SigC p.type u) ps us →
    List.Forall₂ (fun (t : CType) u => t.isConvertibleTo u = true) ts us →
    Safe (fun _ s' => s = s') (Ana.passArgs k .normal as ps) s
  | [], ps, ts, us, ha, hp, hc => by
    unfold Ana.passArgs
    exact .pure rfl
  | a :: as, [], ts, us, ha, hp, hc => by
    unfold Ana.passArgs
    exact .pure rfl
  | a :: as, p :: ps, _, _, .cons h1 ha, .cons h2 hp, .cons h3 hc => by
    unfold Ana.passArgs
    obtain ⟨v, hv, rfl, hok⟩ := h1
    rw [h2.2.1, hv]
    refine .get_bind (fun _ h => by cases h) fun _ h => ?_
    cases h
    refine .value_bind fun _ h => ?_
    cases h
    refine .value_bind fun _ h => ?_
    cases h
    refine .ite (fun h => absurd h3 h) fun _ => ?_
    have ih := passArgs_safe (k := k) (s := s) ha hp hc
    cases evalConversionV v _ with
    | ok w => exact .ite (fun h => by cases h) fun _ => ih
    | err e => exact .ite (fun h => by cases h) fun _ => ih
    | throws => exact .throws
    | ub => exact .ub

section

variable {T : Typing} {S X own seen : List Key} {n : Nat} {af : Key → Level → AM Unit}

theorem callFunction_safe (hT : StaticOk T) (haf : AfSafe T S X own seen af) {k j : Key} {args : List AExpr} {s : ASt}
    (hs : TypedSt T S X own seen s) {ts us : List CType} {t : CType} (hsig : signatureOf T seen j = some (us, t)) (hj : j ∉ X)
    (ha : List.Forall₂ Argument args ts) (hc : convertible ts us = true) :
    Safe (fun (r : Key × Value) s' => TypedSt T S X own seen s' ∧ r.2.type = t ∧ VOk r.2 ∧ r.2.val = none)
      (Ana.callFunction n af k j args .full .normal) s := by
  obtain ⟨src, hsrc, rfl, hsg⟩ := signatureOf_iff hsig
  have hc := convertible_iff.1 hc
  unfold Ana.callFunction
  refine .read_bind ?_
  cases hf : s.fns src.k with
  | none =>
    have := hs.has src hsrc
    rw [hf] at this
    cases this
  | some f =>
    obtain ⟨src', hsrc', hk, hof⟩ := hs.fns src.k f hf
    cases hT.unique src' hsrc' src hsrc hk
    simp only
    refine .ite (fun h => absurd ?_ h) fun hlen => ?_
    · rw [hof.params.length_eq, hsg.params.length_eq, ← hc.length_eq, ← ha.length_eq]
    refine Safe.bind (P := fun i s' => s = s' ∧ src.k = i) ?_ fun i _ _ h => ?_
    · unfold Ana.callee
      rw [if_neg (by simp [hof.plain, hsg.plain])]
      exact .pure ⟨rfl, hof.key.symm⟩
    obtain ⟨rfl, rfl⟩ := h
    refine .read_bind ?_
    rw [hf]
    refine .value_bind fun _ h => ?_
    cases h
    refine .assert_bind fun _ => ?_
    have hin : (if ECtx.normal = ECtx.constant ∨ Level.full = .forConst then Level.forConst else .shallow) = .shallow := by
      decide
    simp only [hin]
    refine .ite (fun h => by cases h.1) fun _ => ?_
    refine Safe.bind (haf src s us t hs hsrc hsg hj) fun _ s1 _ h => ?_
    obtain ⟨hs1, hsign⟩ := h
    refine .read_bind ?_
    refine .value_bind fun f1 hf1 => ?_
    have hsign := hsign f1 hf1
    refine .assert_bind fun _ => ?_
    obtain ⟨v, hv, rfl, hw⟩ := hsign.value
    rw [hv]
    refine .deref_bind fun _ h => ?_
    cases h
    refine .ite (fun h => by cases h) fun _ => ?_
    refine Safe.bind (passArgs_safe ha hsign.params hc) fun _ _ _ h => ?_
    subst h
    exact .pure ⟨hs1, rfl, VOk.unknownOf hw, rfl⟩

/-- What is known about an expression after its analysis. -/
def TypedAs (T : Typing) (S X own seen : List Key) (e : AExpr) (t : CType) (e' : AExpr) (s' : ASt) : Prop :=
  TypedSt T S X own seen s' ∧ ∃ v, e'.cv = some v ∧ v.type = t ∧ VOk v ∧ (openE T.names e = true → v.val = none)

/-- The same for several expressions; what is known in advance is known. -/
def TypedArgs (T : Typing) (seen : List Key) : List AExpr → List CType → List AExpr → Prop
  | [], [], [] => True
  | e :: es, t :: ts, e' :: es' =>
    (∃ v, e'.cv = some v ∧ v.type = t ∧ VOk v ∧ (openE T.names e = true → v.val = none) ∧
      ∀ c, valueE T seen e = some c → v = Value.known c) ∧ TypedArgs T seen es ts es'
  | _, _, _ => False

theorem TypedArgs.arguments : {es : List AExpr} → {ts : List CType} → {es' : List AExpr} → TypedArgs T seen es ts es' →
    List.Forall₂ Argument es' ts
  | [], [], [], _ => .nil
  | _ :: _, _ :: _, _ :: _, ⟨⟨v, h1, h2, h3, _⟩, h⟩ => .cons ⟨v, h1, h2, h3⟩ h.arguments
  | [], [], _ :: _, h => h.elim
  | [], _ :: _, _, h => h.elim
  | _ :: _, [], _, h => h.elim
  | _ :: _, _ :: _, [], h => h.elim

theorem mapM_value_safe {s : ASt} {P : List Value → ASt → Prop} : {args : List AExpr} → {ts : List CType} →
    List.Forall₂ Argument args ts → (∀ vs, args.map AExpr.cv = vs.map some → vs.map Value.type = ts → (∀ v ∈ vs, VOk v) → P vs s) →
    Safe P (args.mapM fun (a : AExpr) => AM.value a.cv) s
  | [], [], _, h => by
    rw [List.mapM_nil]
    exact .pure (h [] rfl rfl fun _ h => absurd h List.not_mem_nil)
  | a :: args, t :: ts, .cons h1 ha, h => by
    rw [List.mapM_cons]
    obtain ⟨v, hv, rfl, hok⟩ := h1
    rw [hv]
    refine .value_bind fun _ h' => ?_
    cases h'
    refine Safe.bind (P := fun vs s' => s = s' ∧ P (v :: vs) s) (mapM_value_safe ha fun vs h1 h2 h3 => ⟨rfl, ?_⟩) fun vs _ _ h => ?_
    · refine h (v :: vs) (by simp [hv, h1]) (by simp [h2]) fun w hw => ?_
      rcases List.mem_cons.1 hw with rfl | hw
      · exact hok
      · exact h3 w hw
    · obtain ⟨rfl, h⟩ := h
      exact .pure h

theorem passed_iff {o : Outcome CheckErr CType} {t : CType} : passed o = some t ↔ o = .ok t := by
  unfold passed
  cases o <;> simp

theorem builtin_safe {f : Builtin} {args args' : List AExpr} {ts : List CType} {t : CType} {vs : List Value}
    (hargs : TypedArgs T seen args ts args') (hm : args.all (mayHold T seen) = true) (ht : checkBuiltin f ts = .ok t)
    (h1 : args'.map AExpr.cv = vs.map some) (h2 : vs.map Value.type = ts) :
    ∃ w, evalBuiltinV f vs = .ok w ∧ w.type = t := by
  cases f
  have ht' := ht
  unfold checkBuiltin at ht
  split at ht
  · cases ht
  · next hlen =>
    simp only at ht
    split at ht
    · cases ht
    · next hb =>
      cases ht
      simp only [Builtin.paramTypes, List.length_cons, List.length_nil, ne_eq, not_not] at hlen
      match ts, hlen with
      | [u], _ =>
        match args, args', hargs with
        | _ :: _ :: _, _ :: _, ⟨_, h⟩ => exact h.elim
        | [e], [e'], ⟨⟨v, hv, hvt, hok, hopen, hknown⟩, _⟩ =>
          match vs, h2 with
          | [w], h2 =>
            simp only [List.map_cons, List.map_nil, List.cons.injEq, and_true, hv, Option.some.injEq] at h1
            subst h1
            have hu : u = .bool := by simpa using hb
            subst hu
            unfold evalBuiltinV
            simp only [List.map_cons, List.map_nil, hvt, ht', Outcome.mapErr_ok, Outcome.ok_bind]
            cases hx : v.val with
            | none =>
              rw [if_pos (by simp [Value.isKnown, hx])]
              exact ⟨_, rfl, rfl⟩
            | some x =>
              rw [if_neg (by simp [Value.isKnown, hx])]
              simp only [List.all_cons, List.all_nil, Bool.and_true, mayHold, Bool.or_eq_true, decide_eq_true_eq] at hm
              rcases hm with hm | hm
              · rw [hopen hm] at hx
                cases hx
              · have := hknown _ hm
                subst this
                exact ⟨_, rfl, rfl⟩

mutual

theorem typeE_safe (hT : StaticOk T) {self : Key} (haf : AfSafe T S [self] own seen af) : (e : AExpr) → {s : ASt} → {t : CType} →
    TypedSt T S [self] own seen s → RawE e → typeE T self own seen e = some t →
    Safe (TypedAs T S [self] own seen e t) (Ana.expr n af e .full .normal) s
  | .literal k cv lit, s, t, hs, hr, ht => by
    have hcv : cv = none := hr
    subst hcv
    simp only [Ana.expr, Ana.literal]
    rw [typeE.eq_def] at ht
    cases lit with
    | none => cases ht
    | some l =>
      cases l with
      | true_ => cases ht; exact .pure ⟨hs, _, rfl, rfl, VOk.known (by decide), fun h => by simp [openE] at h⟩
      | false_ => cases ht; exact .pure ⟨hs, _, rfl, rfl, VOk.known (by decide), fun h => by simp [openE] at h⟩
      | integer text =>
        simp only at ht ⊢
        cases hp : parseIntegerLiteral text with
        | none => simp [hp] at ht
        | some x =>
          simp only [hp, Option.isSome_some, if_true, Option.some.injEq] at ht
          subst ht
          exact .pure ⟨hs, _, rfl, rfl, VOk.known (litValue_wf (l := .integer text) (by simp [litValue, hp])),
            fun h => by simp [openE] at h⟩
  | .id k cv name ref g, s, t, hs, hr, ht => by
    have hcv : cv = none := hr
    subst hcv
    rw [Ana.expr.eq_def]
    rw [typeE.eq_def] at ht
    simp only at ht
    have fin : Safe (fun o s' => s = s' ∧ ∃ v, o = some v ∧ v.type = t ∧ VOk v ∧ (openE T.names (.id k none name ref g) = true → v.val = none))
        (Ana.idValue k ref .normal) s → Safe (TypedAs T S [self] own seen (.id k none name ref g) t) (do
          let cv ← Ana.idValue k ref .normal
          Pure.pure (.id k cv name ref g) : AM AExpr) s := by
      intro h
      refine h.bind fun o _ _ h => ?_
      obtain ⟨rfl, v, rfl, h⟩ := h
      exact .pure ⟨hs, v, rfl, h⟩
    cases ref with
    | none => cases ht
    | some r =>
      cases r with
      | builtin f => cases ht
      | param p =>
        simp only at ht
        by_cases hp : own.contains p = true
        · rw [if_pos hp] at ht
          obtain ⟨h1, h2⟩ := hs.params p (List.contains_iff_mem.1 hp) t ht
          refine fin ?_
          unfold Ana.idValue
          refine .ite (fun h => by cases h) fun _ => ?_
          refine .read_bind ?_
          simp only [h2]
          exact .pure ⟨rfl, _, rfl, rfl, VOk.unknownOf h1, fun _ => rfl⟩
        · rw [if_neg hp] at ht
          cases ht
      | node j =>
        simp only at ht
        split at ht
        · cases ht
        next hj =>
        have hj : j ∈ seen := by simpa using hj
        refine fin ?_
        unfold Ana.idValue
        refine .read_bind ?_
        split at ht
        · next hc =>
          have hc := List.contains_iff_mem.1 hc
          cases hv : T.names.value j with
          | none => simp [hv] at ht
          | some v =>
            simp only [hv, Option.map_some, Option.some.injEq] at ht
            subst ht
            obtain ⟨h1, h2, h3⟩ := hs.vals j hj hc v hv
            simp only [h1, h2]
            refine .pure ⟨rfl, _, rfl, rfl, VOk.known h3, fun h => ?_⟩
            simp only [openE, List.contains_iff_mem] at h
            exact absurd h (hT.one j hc)
        · split at ht
          · next hl =>
            have hl := List.contains_iff_mem.1 hl
            obtain ⟨h1, h2⟩ := hs.lets j hj hl t ht
            simp only [hs.none j _ hl, h1]
            refine .ite (fun h => by cases h) fun _ => ?_
            exact .pure ⟨rfl, _, rfl, rfl, VOk.unknownOf h2, fun _ => rfl⟩
          · cases ht
  | .conversion k cv e ty, s, t, hs, hr, ht => by
    rw [Ana.expr]
    rw [typeE] at ht
    cases he : typeE T self own seen e with
    | none => simp [he] at ht
    | some u =>
      cases hty : valueT T seen ty with
      | none => simp [he, hty] at ht
      | some t' =>
        simp only [he, hty] at ht
        split at ht
        · next hc =>
          cases ht
          refine Safe.bind (typeE_safe hT haf e hs hr.2.1 he) fun e' s1 _ h => ?_
          obtain ⟨hs, v, hv, rfl, hok, hopen⟩ := h
          refine Safe.bind (valueT_safe hs.vals hr.2.2 hty) fun ty' _ _ h => ?_
          obtain ⟨rfl, hsig⟩ := h
          rw [hv]
          refine .value_bind fun _ h => ?_
          cases h
          rw [hsig.2.1]
          refine .get_bind (fun _ h => by cases h) fun _ h => ?_
          cases h
          refine .value_bind fun _ h => ?_
          cases h
          refine .ite (fun h => absurd hc h) fun _ => ?_
          refine .fold_bind (.inl rfl) fun w hw => ?_
          exact .pure ⟨hs, w, rfl, folds_conversion_type hw, hok.conversion hsig.2.2 hw,
            fun h => fold_unknown hw fun _ hx => convert_unknown (hopen h) hx⟩
        · cases ht
  | .ite k cv l c r, s, t, hs, hr, ht => by
    rw [Ana.expr]
    rw [typeE] at ht
    cases hl : typeE T self own seen l with
    | none => simp [hl] at ht
    | some tl =>
      cases hc : typeE T self own seen c with
      | none => simp [hl, hc] at ht
      | some tc =>
        cases hrr : typeE T self own seen r with
        | none => simp [hl, hc, hrr] at ht
        | some tr =>
          simp only [hl, hc, hrr, passed_iff] at ht
          refine Safe.bind (typeE_safe hT haf c hs hr.2.2.1 hc) fun c' s1 _ h => ?_
          obtain ⟨hs, vc, hvc, rfl, hokc, hopenc⟩ := h
          rw [hvc]
          refine .deref_bind fun _ h => ?_
          cases h
          have hb : vc.type = .bool := by
            unfold checkIf at ht
            split at ht
            · cases ht
            · next h => simpa using h
          refine .ite (fun h => absurd hb h) fun _ => ?_
          refine .ite (fun h => by cases h) fun _ => ?_
          refine Safe.bind (P := fun o s' => s1 = s' ∧ none = o) (.pure ⟨rfl, rfl⟩) fun _ _ _ h => ?_
          obtain ⟨rfl, rfl⟩ := h
          simp only [ite_self]
          refine Safe.bind (typeE_safe hT haf l hs hr.2.1 hl) fun l' s2 _ h => ?_
          obtain ⟨hs, vl, hvl, rfl, hokl, hopenl⟩ := h
          refine Safe.bind (typeE_safe hT haf r hs hr.2.2.2 hrr) fun r' s3 _ h => ?_
          obtain ⟨hs, vr, hvr, rfl, hokr, hopenr⟩ := h
          rw [hvl, hvr]
          refine .deref_bind fun _ h => ?_
          cases h
          refine .deref_bind fun _ h => ?_
          cases h
          refine .checked_bind ht ?_
          have hopen : openE T.names (.ite k cv l c r) = true → vc.val = none ∨ (vl.val = none ∧ vr.val = none) := by
            intro h
            simp only [openE, Bool.or_eq_true, Bool.and_eq_true] at h
            exact h.imp hopenc fun h => ⟨hopenl h.1, hopenr h.2⟩
          cases hw : evalIfV vl vc vr with
          | ok w =>
            exact .pure (P := TypedAs T S [self] own seen _ t)
              ⟨hs, w, rfl, evalIfV_type hw ht, hokl.ite hokc hokr ht (.inl hw), fun h => if_unknown (hopen h) hw⟩
          | err e =>
            refine .ite (fun h => by cases h) fun _ => ?_
            exact .pure (P := TypedAs T S [self] own seen _ t)
              ⟨hs, _, rfl, rfl, hokl.ite hokc hokr ht (.inr ⟨⟨e, hw⟩, rfl⟩), fun _ => rfl⟩
          | throws => exact .throws
          | ub => exact .ub
  | .binary k cv op l r, s, t, hs, hr, ht => by
    rw [Ana.expr]
    rw [typeE] at ht
    cases hl : typeE T self own seen l with
    | none => simp [hl] at ht
    | some tl =>
      cases hrr : typeE T self own seen r with
      | none => simp [hl, hrr] at ht
      | some tr =>
        simp only [hl, hrr, passed_iff] at ht
        refine Safe.bind (typeE_safe hT haf l hs hr.2.1 hl) fun l' s1 _ h => ?_
        obtain ⟨hs, vl, hvl, rfl, hokl, hopenl⟩ := h
        refine .assert_bind fun _ => ?_
        refine Safe.bind (P := fun c s' => s1 = s' ∧ ECtx.normal = c) ?_ fun c _ _ h => ?_
        · unfold Ana.rightContext
          rw [if_neg (by simp)]
          exact .pure ⟨rfl, rfl⟩
        obtain ⟨rfl, rfl⟩ := h
        refine Safe.bind (typeE_safe hT haf r hs hr.2.2 hrr) fun r' s2 _ h => ?_
        obtain ⟨hs, vr, hvr, rfl, hokr, hopenr⟩ := h
        refine .assert_bind fun _ => ?_
        rw [hvl, hvr]
        refine .deref_bind fun _ h => ?_
        cases h
        refine .deref_bind fun _ h => ?_
        cases h
        refine .checked_bind ht ?_
        refine .fold_bind (.inl rfl) fun w hw => ?_
        refine .pure ⟨hs, w, rfl, folds_binary_type hokl hokr ht hw, hokl.binary hokr ht hw,
          fun h => fold_unknown hw fun _ hx => binary_unknown ?_ hx⟩
        simp only [openE, Bool.or_eq_true] at h
        exact h.imp hopenl hopenr
  | .prefix k cv op e, s, t, hs, hr, ht => by
    rw [Ana.expr]
    rw [typeE] at ht
    cases he : typeE T self own seen e with
    | none => simp [he] at ht
    | some u =>
      simp only [he, passed_iff] at ht
      refine Safe.bind (typeE_safe hT haf e hs hr.2 he) fun e' s1 _ h => ?_
      obtain ⟨hs, v, hv, rfl, hok, hopen⟩ := h
      rw [hv]
      refine .value_bind fun _ h => ?_
      cases h
      refine .checked_bind ht ?_
      refine .fold_bind (.inl rfl) fun w hw => ?_
      exact .pure ⟨hs, w, rfl, folds_unary_type hok ht hw, hok.pre ht hw, fun h => fold_unknown hw fun _ hx => unary_unknown (hopen h) hx⟩
  | .call k cv st name ref args, s, t, hs, hr, ht => typeCall_safe hT haf args hs hr.2.2 ht

theorem typeCall_safe (hT : StaticOk T) {self : Key} (haf : AfSafe T S [self] own seen af) {k : Key} {cv : Option Value} {st : Bool}
    {name : Name} {ref : Option Lookup} : (args : List AExpr) → {s : ASt} → {t : CType} →
    TypedSt T S [self] own seen s → RawEs args → typeE T self own seen (.call k cv st name ref args) = some t →
    Safe (TypedAs T S [self] own seen (.call k cv st name ref args) t) (Ana.expr n af (.call k cv st name ref args) .full .normal) s
  | args, s, t, hs, hr, ht => by
    rw [Ana.expr.eq_def]
    rw [typeE.eq_def] at ht
    simp only at ht
    cases hts : typeEs T self own seen args with
    | none =>
      cases ref with
      | none => simp [hts] at ht
      | some r => cases r <;> simp [hts] at ht
    | some ts =>
      have ih := typeEs_safe hT haf args hs hr hts
      cases ref with
      | none => simp at ht
      | some r =>
        cases r with
        | param p => simp at ht
        | builtin f =>
          simp only [hts] at ht
          split at ht
          · next hm =>
            rw [passed_iff] at ht
            refine Safe.bind ih fun args' s1 _ h => ?_
            obtain ⟨hs, ha⟩ := h
            refine Safe.bind (P := fun vs s' => s1 = s' ∧ args'.map AExpr.cv = vs.map some ∧ vs.map Value.type = ts ∧ ∀ v ∈ vs, VOk v)
              (mapM_value_safe ha.arguments fun vs h1 h2 h3 => ⟨rfl, h1, h2, h3⟩) fun vs _ _ h => ?_
            obtain ⟨rfl, h1, h2, h3⟩ := h
            obtain ⟨w, hw, hwt⟩ := builtin_safe ha hm ht h1 h2
            rw [h2]
            refine .checked_bind ht ?_
            rw [hw]
            exact ⟨hs, w, rfl, hwt, VOk.builtin h3 hw, fun h => by simp [openE] at h⟩
          · cases ht
        | node j =>
          simp only [hts] at ht
          cases hsig : signatureOf T seen j with
          | none => simp [hsig] at ht
          | some p =>
            obtain ⟨us, t'⟩ := p
            simp only [hsig] at ht
            split at ht
            · next hc =>
              cases ht
              refine Safe.bind ih fun args' s1 _ h => ?_
              obtain ⟨hs, ha⟩ := h
              refine Safe.bind (callFunction_safe hT haf hs hsig (by simpa using hc.1) ha.arguments hc.2) fun r s2 _ h => ?_
              exact .pure ⟨h.1, r.2, rfl, h.2.1, h.2.2.1, fun _ => h.2.2.2⟩
            · cases ht

theorem typeEs_safe (hT : StaticOk T) {self : Key} (haf : AfSafe T S [self] own seen af) : (es : List AExpr) → {s : ASt} →
    {ts : List CType} → TypedSt T S [self] own seen s → RawEs es → typeEs T self own seen es = some ts →
    Safe (fun es' s' => TypedSt T S [self] own seen s' ∧ TypedArgs T seen es ts es') (Ana.exprs n af es .full .normal) s
  | [], s, ts, hs, hr, ht => by
    rw [Ana.exprs]
    simp only [typeEs, Option.some.injEq] at ht
    subst ht
    exact .pure ⟨hs, trivial⟩
  | e :: es, s, ts, hs, hr, ht => by
    rw [Ana.exprs]
    rw [typeEs] at ht
    cases h1 : typeE T self own seen e with
    | none => simp [h1] at ht
    | some t =>
      cases h2 : typeEs T self own seen es with
      | none => simp [h1, h2] at ht
      | some us =>
        simp only [h1, h2, Option.some.injEq] at ht
        subst ht
        have known : Safe (fun e' s' => TypedAs T S [self] own seen e t e' s' ∧ ∀ c, valueE T seen e = some c → e'.cv = some (Value.known c))
            (Ana.expr n af e .full .normal) s := by
          have h := typeE_safe hT haf e hs hr.1 h1
          cases hc : valueE T seen e with
          | none => exact h.mono fun e' s' _ h => ⟨h, fun c hc => by cases hc⟩
          | some c => exact (h.and (valueE_safe hs.vals hr.1 hc _ _)).mono fun e' s' _ h => ⟨h.1, fun c' hc' => by cases hc'; exact h.2.2.1⟩
        refine Safe.bind known fun e' s1 _ h => ?_
        obtain ⟨⟨hs, v, hv, hvt, hok, hopen⟩, hk⟩ := h
        refine .value_bind fun _ _ => ?_
        refine Safe.bind (typeEs_safe hT haf es hs hr.2 h2) fun es' s2 _ h => ?_
        refine .pure ⟨h.1, ⟨v, hv, hvt, hok, hopen, fun c hc => ?_⟩, h.2⟩
        have := hk c hc
        rw [hv] at this
        exact Option.some.inj this

end

end

end Bms
