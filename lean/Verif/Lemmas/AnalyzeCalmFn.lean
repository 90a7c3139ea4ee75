import Verif.Lemmas.AnalyzeCalm
import Verif.Lemmas.AnalyzeEnds

/-!
# Analysis of calm expressions and functions
-/

namespace Bms

open Spec

/-! ## Operations on unknown values -/

theorem convert_unknown {v w : Value} {t : CType} (hv : v.val = none) (h : evalConversionV v t = .ok w) :
    w.val = none := by
  unfold evalConversionV Value.convertTo at h
  rw [hv] at h
  split at h
  · cases h
  · simp only at h
    cases h
    rfl

theorem fold_unknown {o : Outcome EvalErr Value} {t : CType} {w : Value} (hf : Folds o t w)
    (h : ∀ v, o = .ok v → v.val = none) : w.val = none := by
  rcases hf with hf | ⟨-, rfl⟩
  · exact h w hf
  · rfl

theorem unary_unknown {op : ExprType} {v w : Value} (hv : v.val = none) (h : evalUnaryV op v = .ok w) : w.val = none := by
  unfold evalUnaryV at h
  rw [hv] at h
  obtain ⟨_, _, h⟩ := Outcome.bind_eq_ok.1 h
  cases h
  exact hv

theorem binary_unknown {op : ExprType} {a b w : Value} (hv : a.val = none ∨ b.val = none)
    (h : evalBinaryV a op b = .ok w) : w.val = none := by
  unfold evalBinaryV at h
  obtain ⟨t, _, h⟩ := Outcome.bind_eq_ok.1 h
  obtain ⟨⟨l, r⟩, hc, h⟩ := Outcome.bind_eq_ok.1 h
  unfold convertToEqualV at hc
  obtain ⟨c, _, hc⟩ := Outcome.bind_eq_ok.1 hc
  obtain ⟨l', hl, hc⟩ := Outcome.bind_eq_ok.1 hc
  obtain ⟨r', hr, hc⟩ := Outcome.bind_eq_ok.1 hc
  cases hc
  have hn : l.val = none ∨ r.val = none := hv.imp (fun h => convert_unknown h hl) fun h => convert_unknown h hr
  simp only at h
  cases hx : l.val with
  | none =>
    cases hy : r.val with
    | none =>
      simp only [hx, hy] at h
      cases h
      rfl
    | some y =>
      simp only [hx, hy] at h
      obtain ⟨_, _, h⟩ := Outcome.bind_eq_ok.1 h
      cases h
      rfl
  | some x =>
    cases hy : r.val with
    | none =>
      simp only [hx, hy] at h
      cases h
      rfl
    | some y => simp [hx, hy] at hn

theorem if_unknown {l c r w : Value} (hv : c.val = none ∨ (l.val = none ∧ r.val = none))
    (h : evalIfV l c r = .ok w) : w.val = none := by
  unfold evalIfV at h
  obtain ⟨t, _, h⟩ := Outcome.bind_eq_ok.1 h
  split at h
  · cases h
    rfl
  · next hk =>
    obtain ⟨b, _, h⟩ := Outcome.bind_eq_ok.1 h
    rcases hv with hv | ⟨hl, hr⟩
    · simp [Value.isKnown, hv] at hk
    · refine convert_unknown ?_ h
      cases b
      · exact hr
      · exact hl

/-! ## The invariant -/

/-- A type node that can be analyzed, or has been. -/
def TypeOk (K : Facts) (ty : AType) : Prop := (RawT ty ∧ considered (constT K ty) = true) ∨ ∃ t, SigC ty t

/-- The function that may not be called in a function. -/
def badOf (f : AFn) : Option Key := if f.requires_.isSome then none else some f.k

/-- A function with key `j`. Functions in `X` are being analyzed and may have no value. -/
structure FnCalm (K : Facts) (X : List Key) (j : Key) (f : AFn) : Prop where
  key : f.k = j
  plain : f.generic = false
  inst : f.instances = []
  keys : ∀ p ∈ f.params, ∀ a, (p.k, a) ∉ K.kinds
  params : ∀ p ∈ f.params, TypeOk K p.type
  ret : TypeOk K f.ret
  req : ∀ e ∈ f.requires_, (RawE e ∧ considered (constE K e) = true) ∨
    (∃ v, e.cv = some v) ∧ ∃ v, f.cv = some v ∧ v.type.WF
  body : f.level.rank < 2 → RawSs f.body ∧ calmSs K (f.params.map AParam.k) (badOf f) [] f.body = true ∧
    ∀ d ∈ declsSs f.body, d ∈ K.kinds
  done : 1 ≤ f.level.rank → (∀ p ∈ f.params, ∃ t, SigC p.type t) ∧ (∃ t, SigC f.ret t) ∧
    (∀ e ∈ f.requires_, ∃ v, e.cv = some v) ∧ (j ∈ X ∨ ∃ v, f.cv = some v ∧ v.type.WF)

theorem FnCalm.mono {K : Facts} {X Y : List Key} {j : Key} {f : AFn} (h : FnCalm K X j f) (hXY : j ∈ X → j ∈ Y) :
    FnCalm K Y j f :=
  ⟨h.key, h.plain, h.inst, h.keys, h.params, h.ret, h.req, h.body, fun hl => by
    obtain ⟨a, b, c, d⟩ := h.done hl
    exact ⟨a, b, c, d.imp hXY id⟩⟩

/-- Parameters of the function that is analyzed have types. -/
def OwnOk (own : List Key) (s : ASt) : Prop :=
  ∀ p ∈ own, ∃ t, t.WF ∧ s.decl p = some ⟨.param, some (Value.unknownOf t)⟩

/-- The state during analysis of calm programs, in a function with parameters `own`, after declarations of
variables in `seen`. Signatures of functions in `S` are done. -/
structure CalmSt (K : Facts) (S X own seen : List Key) (s : ASt) : Prop where
  names : NamesOk K s
  fns : ∀ j f, s.fns j = some f → FnCalm K X j f
  ownOk : OwnOk own s
  ownKeys : ∀ p ∈ own, ∀ a, (p, a) ∉ K.kinds
  seenOk : ∀ j ∈ seen, (j, .let_) ∈ K.kinds → ∃ v, s.decl j = some ⟨.let_, some v⟩
  self : ∀ j ∈ S, ∃ f, s.fns j = some f ∧ 1 ≤ f.level.rank

/-- A function is replaced. -/
theorem CalmSt.fn {K : Facts} {S X Y own seen : List Key} {s s' : ASt} (h : CalmSt K S X own seen s) {k : Key} {f f' : AFn}
    (hf : s.fns k = some f) (hd : s'.decl = s.decl) (hk : s'.fns k = some f') (hj : ∀ j, j ≠ k → s'.fns j = s.fns j)
    (hf' : FnCalm K Y k f') (hXY : ∀ j, j ≠ k → j ∈ X → j ∈ Y)
    (hlev : k ∈ S → 1 ≤ f'.level.rank) : CalmSt K S Y own seen s' := by
  refine ⟨⟨fun j hm => ?_, fun j hm => ?_, fun j hm => ?_⟩, fun j g hg => ?_, fun p hp => ?_, h.ownKeys, fun j hm hl => ?_,
    fun j hm => ?_⟩
  · by_cases e : j = k
    · rw [e, hk]
      rfl
    · rw [hj j e]
      exact h.names.fns j hm
  · obtain ⟨a, b⟩ := h.names.const j hm
    have e : j ≠ k := by rintro rfl; rw [hf] at a; cases a
    rw [hj j e, hd]
    exact ⟨a, b⟩
  · obtain ⟨a, b⟩ := h.names.let_ j hm
    have e : j ≠ k := by rintro rfl; rw [hf] at a; cases a
    rw [hj j e, hd]
    exact ⟨a, b⟩
  · by_cases e : j = k
    · subst e
      rw [hk] at hg
      cases hg
      exact hf'
    · rw [hj j e] at hg
      exact (h.fns j g hg).mono (hXY j e)
  · rw [hd]
    exact h.ownOk p hp
  · rw [hd]
    exact h.seenOk j hm hl
  · by_cases e : j = k
    · subst e
      exact ⟨f', hk, hlev hm⟩
    · rw [hj j e]
      exact h.self j hm

/-- A change of the state that is not observed. -/
theorem CalmSt.same {K : Facts} {S X own seen : List Key} {s s' : ASt} (h : CalmSt K S X own seen s) (hd : s'.decl = s.decl)
    (hf : s'.fns = s.fns) : CalmSt K S X own seen s' := by
  refine ⟨⟨?_, ?_, ?_⟩, ?_, ?_, h.ownKeys, ?_, ?_⟩
  · rw [hf]; exact h.names.fns
  · rw [hf, hd]; exact h.names.const
  · rw [hf, hd]; exact h.names.let_
  · rw [hf]; exact h.fns
  · intro p hp
    rw [hd]; exact h.ownOk p hp
  · rw [hd]; exact h.seenOk
  · rw [hf]; exact h.self

/-- A parameter gets its type. -/
theorem CalmSt.param {K : Facts} {S X own seen : List Key} {s : ASt} (h : CalmSt K S X own seen s) {p : Key} {t : CType} (ht : t.WF)
    (hp : ∀ a, (p, a) ∉ K.kinds) : CalmSt K S X own seen (s.setDecl p ⟨.param, some (Value.unknownOf t)⟩) := by
  have hne : ∀ j a, (j, a) ∈ K.kinds → (s.setDecl p ⟨.param, some (Value.unknownOf t)⟩).decl j = s.decl j := by
    intro j a hj
    have e : j ≠ p := by rintro rfl; exact hp a hj
    simp [ASt.setDecl, e]
  refine ⟨⟨h.names.fns, fun j hm => ?_, fun j hm => ?_⟩, h.fns, fun q hq => ?_, h.ownKeys, fun j hm hl => ?_, h.self⟩
  · rw [hne j _ hm]; exact h.names.const j hm
  · rw [hne j _ hm]; exact h.names.let_ j hm
  · by_cases e : q = p
    · exact ⟨t, ht, by simp [ASt.setDecl, e]⟩
    · obtain ⟨u, hu, hd⟩ := h.ownOk q hq
      exact ⟨u, hu, by simpa [ASt.setDecl, e] using hd⟩
  · rw [hne j _ hl]; exact h.seenOk j hm hl

/-- A constant gets its value. -/
theorem CalmSt.const {K : Facts} {S X own seen : List Key} {s : ASt} (h : CalmSt K S X own seen s) {k : Key} {c : CVal} (hc : WF c)
    (hv : K.value k = some c) (hk : (k, .const_) ∈ K.kinds) :
    CalmSt K S X own (seen ++ [k]) (s.setDecl k ⟨.const_, some (Value.known c)⟩) := by
  obtain ⟨h1, cv, h2, h3⟩ := h.names.const k hk
  refine ⟨⟨h.names.fns, fun j hm => ?_, fun j hm => ?_⟩, h.fns, fun q hq => ?_, h.ownKeys, fun j hm hl => ?_, h.self⟩
  · by_cases e : j = k
    · subst e
      exact ⟨h1, some (Value.known c), by simp [ASt.setDecl], fun v hv' => by
        cases hv'
        exact ⟨c, hv, rfl, hc⟩⟩
    · simpa [ASt.setDecl, e] using h.names.const j hm
  · have e : j ≠ k := by
      rintro rfl
      obtain ⟨-, _, h4, -⟩ := h.names.let_ j hm
      rw [h2] at h4
      cases h4
    simpa [ASt.setDecl, e] using h.names.let_ j hm
  · have e : q ≠ k := by rintro rfl; exact h.ownKeys q hq _ hk
    obtain ⟨u, hu, hd⟩ := h.ownOk q hq
    exact ⟨u, hu, by simpa [ASt.setDecl, e] using hd⟩
  · have e : j ≠ k := by
      rintro rfl
      obtain ⟨-, _, h4, -⟩ := h.names.let_ j hl
      rw [h2] at h4
      cases h4
    have hm' : j ∈ seen := by
      rcases List.mem_append.1 hm with hm | hm
      · exact hm
      · exact absurd (List.mem_singleton.1 hm) e
    simpa [ASt.setDecl, e] using h.seenOk j hm' hl

/-- A variable gets its type. -/
theorem CalmSt.var {K : Facts} {S X own seen : List Key} {s : ASt} (h : CalmSt K S X own seen s) {k : Key} {t : CType} (ht : t.WF)
    (hk : (k, .let_) ∈ K.kinds) :
    CalmSt K S X own (seen ++ [k]) (s.setDecl k ⟨.let_, some (Value.unknownOf t)⟩) := by
  obtain ⟨h1, cv, h2, h3⟩ := h.names.let_ k hk
  refine ⟨⟨h.names.fns, fun j hm => ?_, fun j hm => ?_⟩, h.fns, fun q hq => ?_, h.ownKeys, fun j hm hl => ?_, h.self⟩
  · have e : j ≠ k := by
      rintro rfl
      obtain ⟨-, _, h4, -⟩ := h.names.const j hm
      rw [h2] at h4
      cases h4
    simpa [ASt.setDecl, e] using h.names.const j hm
  · by_cases e : j = k
    · subst e
      exact ⟨h1, some (Value.unknownOf t), by simp [ASt.setDecl], fun v hv' => by
        cases hv'
        exact ⟨ht, rfl⟩⟩
    · simpa [ASt.setDecl, e] using h.names.let_ j hm
  · have e : q ≠ k := by rintro rfl; exact h.ownKeys q hq _ hk
    obtain ⟨u, hu, hd⟩ := h.ownOk q hq
    exact ⟨u, hu, by simpa [ASt.setDecl, e] using hd⟩
  · by_cases e : j = k
    · exact ⟨Value.unknownOf t, by simp [ASt.setDecl, e]⟩
    · have hm' : j ∈ seen := by
        rcases List.mem_append.1 hm with hm | hm
        · exact hm
        · exact absurd (List.mem_singleton.1 hm) e
      simpa [ASt.setDecl, e] using h.seenOk j hm' hl

/-! ## Expressions outside of constant expressions -/

/-- A function whose signature is known. -/
structure Signed (f : AFn) : Prop where
  level : 1 ≤ f.level.rank
  params : ∀ p ∈ f.params, ∃ t, SigC p.type t
  value : ∃ v, f.cv = some v ∧ v.type.WF

/-- Calls are calm. -/
def AfCalm (K : Facts) (S X own seen : List Key) (af : Key → Level → AM Unit) : Prop :=
  ∀ j f s, CalmSt K S X own seen s → s.fns j = some f → j ∉ X →
    Calm (fun _ s' => CalmSt K S X own seen s' ∧ ∃ f', s'.fns j = some f' ∧ Signed f') (af j .shallow) s

section

variable {K : Facts} {S X own seen : List Key} {n : Nat} {af : Key → Level → AM Unit}

theorem constE_considered {s : ASt} (hs : NamesOk K s) {e : AExpr} (hr : RawE e) (h : considered (constE K e) = true)
    {level : Level} :
    Calm (fun (e' : AExpr) s' => s = s' ∧ ∃ v, constE K e = .ok v ∧ e'.cv = some (Value.known v) ∧ WF v)
      (Ana.expr n af e level .constant) s := by
  obtain ⟨h1, h2⟩ := constE_calm (n := n) (af := af) hs e hr
  cases hc : constE K e with
  | ok v => exact (h1 v hc level .constant).mono fun _ _ _ h => ⟨h.1, v, rfl, h.2⟩
  | err u => exact calm_false (h2 hc level)
  | throws => rw [hc] at h; cases h
  | ub => rw [hc] at h; cases h

theorem constT_considered {s : ASt} (hs : NamesOk K s) {ty : AType} (hr : RawT ty) (h : considered (constT K ty) = true) :
    Calm (fun ty' s' => s = s' ∧ ∃ t, constT K ty = .ok t ∧ SigC ty' t) (Ana.type n af ty) s := by
  obtain ⟨h1, h2⟩ := constT_calm (n := n) (af := af) hs ty hr
  cases hc : constT K ty with
  | ok t => exact (h1 t hc).mono fun _ _ _ h => ⟨h.1, t, rfl, h.2⟩
  | err u => exact calm_false (h2 hc)
  | throws => rw [hc] at h; cases h
  | ub => rw [hc] at h; cases h

theorem type_calm {s : ASt} (hs : NamesOk K s) {ty : AType} (h : TypeOk K ty) :
    Calm (fun ty' s' => s = s' ∧ ∃ t, SigC ty' t) (Ana.type n af ty) s := by
  rcases h with ⟨h1, h2⟩ | ⟨t, ht⟩
  · exact (constT_considered hs h1 h2).mono fun _ _ _ h => ⟨h.1, h.2.imp fun _ h => h.2⟩
  · have hc := ht.1
    cases ty <;> simp only [AType.cv] at hc <;> subst hc <;> rw [Ana.type.eq_def] <;> exact .pure ⟨rfl, t, ht⟩

theorem passArgs_calm {k : Key} : (as : List AExpr) → (ps : List AParam) → {s : ASt} →
    (∀ a ∈ as, ∃ v, a.cv = some v ∧ VOk v) → (∀ p ∈ ps, ∃ t, SigC p.type t) →
    Calm (fun _ s' => s = s') (Ana.passArgs k .normal as ps) s
  | [], ps, s, _, _ => by
    unfold Ana.passArgs
    exact .pure rfl
  | a :: as, [], s, _, _ => by
    unfold Ana.passArgs
    exact .pure rfl
  | a :: as, p :: ps, s, ha, hp => by
    unfold Ana.passArgs
    obtain ⟨v, hv, hok⟩ := ha a (by simp)
    obtain ⟨t, ht⟩ := hp p (by simp)
    have ih := passArgs_calm (k := k) as ps (s := s) (fun a h => ha a (by simp [h])) fun p h => hp p (by simp [h])
    refine Calm.bind (P := fun a s' => s = s' ∧ a = some t) (.get ht.2.1 ⟨rfl, rfl⟩) fun _ _ _ h => ?_
    obtain ⟨rfl, rfl⟩ := h
    refine Calm.bind (P := fun a s' => s = s' ∧ t = a) (.value rfl ⟨rfl, rfl⟩) fun _ _ _ h => ?_
    obtain ⟨rfl, rfl⟩ := h
    refine Calm.bind (P := fun a s' => s = s' ∧ v = a) (.value hv ⟨rfl, rfl⟩) fun _ _ _ h => ?_
    obtain ⟨rfl, rfl⟩ := h
    refine .ite (fun _ => .fail) fun _ => ?_
    have := considered_conversion v t
    cases hx : evalConversionV v t with
    | ok w => exact .ite (fun h => by cases h) fun _ => ih
    | err e => exact .ite (fun h => by cases h) fun _ => ih
    | throws => rw [hx] at this; cases this
    | ub => rw [hx] at this; cases this

theorem callFunction_calm (haf : AfCalm K S X own seen af) {k j : Key} {args : List AExpr} {s : ASt} (hs : CalmSt K S X own seen s)
    (hj : j ∉ X) (ha : ∀ a ∈ args, ∃ v, a.cv = some v ∧ VOk v) :
    Calm (fun (r : Key × Value) s' => CalmSt K S X own seen s' ∧ VOk r.2 ∧ r.2.val = none)
      (Ana.callFunction n af k j args .full .normal) s := by
  unfold Ana.callFunction
  refine Calm.bind (P := fun t s' => s = t ∧ s = s') (.read ⟨rfl, rfl⟩) fun t _ _ h => ?_
  obtain ⟨rfl, rfl⟩ := h
  cases hf : s.fns j with
  | none => exact .fail
  | some f =>
    have hq := hs.fns j f hf
    simp only
    refine .ite (fun _ => .fail) fun hlen => ?_
    refine Calm.bind (P := fun i s' => s = s' ∧ j = i) ?_ fun i _ _ h => ?_
    · unfold Ana.callee
      rw [if_neg (by simp [hq.plain])]
      exact .pure ⟨rfl, hq.key.symm⟩
    obtain ⟨rfl, rfl⟩ := h
    refine Calm.bind (P := fun t s' => s = t ∧ s = s') (.read ⟨rfl, rfl⟩) fun _ _ _ h => ?_
    obtain ⟨rfl, rfl⟩ := h
    refine Calm.bind (P := fun a s' => s = s' ∧ f = a) (.value hf ⟨rfl, rfl⟩) fun _ _ _ h => ?_
    obtain ⟨rfl, rfl⟩ := h
    refine Calm.bind (P := fun _ s' => s = s') (.assert (by simp [hq.plain]) rfl) fun _ _ _ h => ?_
    subst h
    have hin : (if ECtx.normal = ECtx.constant ∨ Level.full = .forConst then Level.forConst else .shallow) = .shallow := by
      decide
    simp only [hin]
    refine .ite (fun h => by cases h.1) fun _ => ?_
    refine Calm.bind (haf j f s hs hf hj) fun _ s1 _ h => ?_
    obtain ⟨hs1, f1, hf1, hsig⟩ := h
    refine Calm.bind (P := fun t s' => s1 = t ∧ s1 = s') (.read ⟨rfl, rfl⟩) fun _ _ _ h => ?_
    obtain ⟨rfl, rfl⟩ := h
    refine Calm.bind (P := fun a s' => s1 = s' ∧ f1 = a) (.value hf1 ⟨rfl, rfl⟩) fun _ _ _ h => ?_
    obtain ⟨rfl, rfl⟩ := h
    refine Calm.bind (P := fun _ s' => s1 = s') (.assert (decide_eq_true hsig.level) rfl) fun _ _ _ h => ?_
    subst h
    obtain ⟨v, hv, hw⟩ := hsig.value
    refine Calm.bind (P := fun a s' => s1 = s' ∧ v = a) (.deref hv ⟨rfl, rfl⟩) fun _ _ _ h => ?_
    obtain ⟨rfl, rfl⟩ := h
    refine .ite (fun h => by cases h) fun _ => ?_
    refine Calm.bind (passArgs_calm args f1.params ha hsig.params) fun _ _ _ h => ?_
    subst h
    exact .pure ⟨hs1, VOk.unknownOf hw, rfl⟩

theorem mapM_value_calm {s : ASt} : (args : List AExpr) → (∀ a ∈ args, ∃ v, a.cv = some v ∧ VOk v) →
    Calm (fun vs s' => s = s' ∧ ∀ v ∈ vs, VOk v) (args.mapM fun (a : AExpr) => AM.value a.cv) s
  | [], _ => by
    rw [List.mapM_nil]
    exact .pure ⟨rfl, by simp⟩
  | a :: args, ha => by
    rw [List.mapM_cons]
    obtain ⟨v, hv, hok⟩ := ha a (by simp)
    refine Calm.bind (P := fun a s' => s = s' ∧ v = a) (.value hv ⟨rfl, rfl⟩) fun _ _ _ h => ?_
    obtain ⟨rfl, rfl⟩ := h
    refine Calm.bind (mapM_value_calm args fun a h => ha a (by simp [h])) fun vs _ _ h => ?_
    obtain ⟨rfl, h⟩ := h
    refine .pure ⟨rfl, fun w hw => ?_⟩
    rcases List.mem_cons.1 hw with rfl | hw
    · exact hok
    · exact h w hw

/-- What is known about an expression after its analysis. -/
def Valued (K : Facts) (S X own seen : List Key) (e : AExpr) (e' : AExpr) (s' : ASt) : Prop :=
  CalmSt K S X own seen s' ∧ ∃ v, e'.cv = some v ∧ VOk v ∧ (openE K e = true → v.val = none)

mutual

theorem calmE_calm {bad : Option Key} (haf : AfCalm K S bad.toList own seen af) : (e : AExpr) → {s : ASt} →
    CalmSt K S bad.toList own seen s → RawE e → calmE K own bad e = true →
    Calm (Valued K S bad.toList own seen e) (Ana.expr n af e .full .normal) s
  | .literal k cv lit, s, hs, hr, hq => by
    have hcv : cv = none := hr
    have hx : considered (constE K (.literal k cv lit)) = true := by
      rw [constE.eq_def]
      rw [calmE] at hq
      cases lit with
      | none => cases hq
      | some l =>
        cases l with
        | integer t =>
          simp only
          cases parseIntegerLiteral t <;> rfl
        | _ => rfl
    obtain ⟨h1, -⟩ := constE_calm (n := n) (af := af) hs.names (.literal k cv lit) hr
    cases hc : constE K (.literal k cv lit) with
    | ok v => exact (h1 v hc _ _).mono fun e' s' _ ⟨h, hv, hw⟩ => ⟨h ▸ hs, _, hv, VOk.known hw, fun h => by simp [openE] at h⟩
    | err u =>
      subst hcv
      rw [constE.eq_def] at hc
      simp only [Ana.expr, Ana.literal]
      cases lit with
      | none => cases hq
      | some l =>
        cases l with
        | integer t =>
          simp only at hc ⊢
          cases hp : parseIntegerLiteral t with
          | none => exact .fail
          | some x => simp [hp] at hc
        | _ => cases hc
    | throws => rw [hc] at hx; cases hx
    | ub => rw [hc] at hx; cases hx
  | .id k cv name ref g, s, hs, hr, hq => by
    have hcv : cv = none := hr
    subst hcv
    rw [Ana.expr.eq_def]
    rw [calmE.eq_def] at hq
    have fin : ∀ P : Option Value → Prop, Calm (fun o s' => s = s' ∧ P o) (Ana.idValue k ref .normal) s →
        (∀ o, P o → ∃ v, o = some v ∧ VOk v ∧ (openE K (.id k none name ref g) = true → v.val = none)) →
        Calm (Valued K S bad.toList own seen (.id k none name ref g)) (do
          let cv ← Ana.idValue k ref .normal
          Pure.pure (.id k cv name ref g) : AM AExpr) s := by
      intro P h hP
      refine h.bind fun o _ _ h => ?_
      obtain ⟨rfl, h⟩ := h
      obtain ⟨v, rfl, hv⟩ := hP o h
      exact .pure ⟨hs, v, rfl, hv⟩
    cases ref with
    | none => cases hq
    | some r =>
      cases r with
      | builtin f => cases hq
      | param p =>
        have hp : p ∈ own := List.contains_iff_mem.1 hq
        obtain ⟨t, ht, hd⟩ := hs.ownOk p hp
        refine fin (fun o => o = some (Value.unknownOf t)) ?_ fun o ho => ⟨_, ho, VOk.unknownOf ht, fun _ => rfl⟩
        unfold Ana.idValue
        refine .ite (fun h => by cases h) fun _ => ?_
        refine Calm.bind (P := fun t s' => s = t ∧ s = s') (.read ⟨rfl, rfl⟩) fun _ _ _ h => ?_
        obtain ⟨rfl, rfl⟩ := h
        simp only [hd]
        exact .pure ⟨rfl, rfl⟩
      | node j =>
        simp only [Facts.declared, Bool.or_eq_true, List.contains_iff_mem] at hq
        refine fin (fun o => ∃ v, o = some v ∧ VOk v ∧ (openE K (.id k none name (some (.node j)) g) = true → v.val = none)) ?_
          fun _ h => h
        unfold Ana.idValue
        refine Calm.bind (P := fun t s' => s = t ∧ s = s') (.read ⟨rfl, rfl⟩) fun _ _ _ h => ?_
        obtain ⟨rfl, rfl⟩ := h
        cases hf : s.fns j with
        | some f => exact .fail
        | none =>
          rcases hq with (hq | hq) | hq
          · have := hs.names.fns j hq
            rw [hf] at this
            cases this
          · obtain ⟨-, cv, h2, h3⟩ := hs.names.const j hq
            simp only [h2]
            cases cv with
            | none => exact .fail
            | some v =>
              obtain ⟨c, -, rfl, hw⟩ := h3 v rfl
              refine .pure ⟨rfl, _, rfl, VOk.known hw, fun h => ?_⟩
              simp only [openE, List.contains_iff_mem] at h
              obtain ⟨-, _, h4, -⟩ := hs.names.let_ j h
              rw [h2] at h4
              cases h4
          · obtain ⟨-, cv, h2, h3⟩ := hs.names.let_ j hq
            simp only [h2]
            refine .ite (fun h => by cases h) fun _ => ?_
            cases cv with
            | none => exact .fail
            | some v =>
              obtain ⟨hw, hv⟩ := h3 v rfl
              refine .pure ⟨rfl, v, rfl, hv ▸ VOk.unknownOf hw, fun _ => by rw [hv]; rfl⟩
  | .conversion k cv e ty, s, hs, hr, hq => by
    rw [Ana.expr]
    simp only [calmE, Bool.and_eq_true] at hq
    refine Calm.bind (calmE_calm haf e hs hr.2.1 hq.1) fun e' s1 _ h => ?_
    obtain ⟨hs, v, hv, hok, hopen⟩ := h
    refine Calm.bind (constT_considered hs.names hr.2.2 hq.2) fun ty' _ _ h => ?_
    obtain ⟨rfl, t, -, ht⟩ := h
    refine Calm.bind (P := fun a s' => s1 = s' ∧ v = a) (.value hv ⟨rfl, rfl⟩) fun _ _ _ h => ?_
    obtain ⟨rfl, rfl⟩ := h
    refine Calm.bind (P := fun a s' => s1 = s' ∧ some t = a) (.get ht.2.1 ⟨rfl, rfl⟩) fun _ _ _ h => ?_
    obtain ⟨rfl, rfl⟩ := h
    refine Calm.bind (P := fun a s' => s1 = s' ∧ t = a) (.value rfl ⟨rfl, rfl⟩) fun _ _ _ h => ?_
    obtain ⟨rfl, rfl⟩ := h
    refine .ite (fun _ => .fail) fun _ => ?_
    refine Calm.bind (P := fun w s' => s1 = s' ∧ Folds (evalConversionV v t) t w)
      (.foldResult (considered_conversion v t) fun w hw => ⟨rfl, hw⟩) fun w _ _ h => ?_
    obtain ⟨rfl, hw⟩ := h
    exact .pure ⟨hs, w, rfl, hok.conversion ht.2.2 hw, fun h => fold_unknown hw fun _ hx => convert_unknown (hopen h) hx⟩
  | .ite k cv l c r, s, hs, hr, hq => by
    rw [Ana.expr]
    simp only [calmE, Bool.and_eq_true] at hq
    refine Calm.bind (calmE_calm haf c hs hr.2.2.1 hq.1.2) fun c' s1 _ h => ?_
    obtain ⟨hs, vc, hvc, hokc, hopenc⟩ := h
    refine Calm.bind (P := fun a s' => s1 = s' ∧ vc = a) (.deref hvc ⟨rfl, rfl⟩) fun _ _ _ h => ?_
    obtain ⟨rfl, rfl⟩ := h
    refine .ite (fun _ => .fail) fun hb => ?_
    have hb : vc.type = .bool := by simpa using hb
    refine .ite (fun h => by cases h) fun _ => ?_
    refine Calm.bind (P := fun o s' => s1 = s' ∧ none = o) (.pure ⟨rfl, rfl⟩) fun _ _ _ h => ?_
    obtain ⟨rfl, rfl⟩ := h
    simp only [ite_self]
    refine Calm.bind (calmE_calm haf l hs hr.2.1 hq.1.1) fun l' s2 _ h => ?_
    obtain ⟨hs, vl, hvl, hokl, hopenl⟩ := h
    refine Calm.bind (calmE_calm haf r hs hr.2.2.2 hq.2) fun r' s3 _ h => ?_
    obtain ⟨hs, vr, hvr, hokr, hopenr⟩ := h
    refine Calm.bind (P := fun a s' => s3 = s' ∧ vl = a) (.deref hvl ⟨rfl, rfl⟩) fun _ _ _ h => ?_
    obtain ⟨rfl, rfl⟩ := h
    refine Calm.bind (P := fun a s' => s3 = s' ∧ vr = a) (.deref hvr ⟨rfl, rfl⟩) fun _ _ _ h => ?_
    obtain ⟨rfl, rfl⟩ := h
    refine Calm.bind (P := fun t s' => s3 = s' ∧ checkIf vl.type vc.type vr.type = .ok t)
      (.checked (considered_checkIf _ _ _) fun t ht => ⟨rfl, ht⟩) fun t _ _ h => ?_
    obtain ⟨rfl, ht⟩ := h
    have hx := considered_if (l := vl) (r := vr) hb
    have hopen : openE K (.ite k cv l c r) = true → vc.val = none ∨ (vl.val = none ∧ vr.val = none) := by
      intro h
      simp only [openE, Bool.or_eq_true, Bool.and_eq_true] at h
      exact h.imp hopenc fun h => ⟨hopenl h.1, hopenr h.2⟩
    cases hw : evalIfV vl vc vr with
    | ok w =>
      exact .pure (P := Valued K S bad.toList own seen _) ⟨hs, w, rfl, hokl.ite hokc hokr ht (.inl hw), fun h => if_unknown (hopen h) hw⟩
    | err e =>
      refine .ite (fun h => by cases h) fun _ => ?_
      exact .pure (P := Valued K S bad.toList own seen _)
        ⟨hs, _, rfl, hokl.ite hokc hokr ht (.inr ⟨⟨e, hw⟩, rfl⟩), fun _ => rfl⟩
    | throws => rw [hw] at hx; cases hx
    | ub => rw [hw] at hx; cases hx
  | .binary k cv op l r, s, hs, hr, hq => by
    rw [Ana.expr]
    simp only [calmE, Bool.and_eq_true] at hq
    have known : ∀ {e : AExpr} {s : ASt}, CalmSt K S bad.toList own seen s → RawE e → calmE K own bad e = true →
        Calm (Valued K S bad.toList own seen e) (Ana.expr n af e .full .normal) s →
        Calm (fun e' s' => Valued K S bad.toList own seen e e' s' ∧ ∀ u, constE K e = .ok u → e'.cv = some (Value.known u))
          (Ana.expr n af e .full .normal) s := by
      intro e s hs hr hq h
      cases hc : constE K e with
      | ok u =>
        exact (h.and ((constE_calm hs.names e hr).1 u hc _ _)).mono fun e' s' _ h => ⟨h.1, fun u' hu => by cases hu; exact h.2.2.1⟩
      | _ => exact h.mono fun e' s' _ h => ⟨h, fun u' hu => by cases hu⟩
    refine Calm.bind (known hs hr.2.1 hq.1.1 (calmE_calm haf l hs hr.2.1 hq.1.1)) fun l' s1 _ h => ?_
    obtain ⟨⟨hs, vl, hvl, hokl, hopenl⟩, hkl⟩ := h
    refine Calm.bind (P := fun _ s' => s1 = s') (.assert rfl rfl) fun _ _ _ h => ?_
    subst h
    refine Calm.bind (P := fun c s' => s1 = s' ∧ ECtx.normal = c) ?_ fun c _ _ h => ?_
    · unfold Ana.rightContext
      rw [if_neg (by simp)]
      exact .pure ⟨rfl, rfl⟩
    obtain ⟨rfl, rfl⟩ := h
    refine Calm.bind (known hs hr.2.2 hq.1.2 (calmE_calm haf r hs hr.2.2 hq.1.2)) fun r' s2 _ h => ?_
    obtain ⟨⟨hs, vr, hvr, hokr, hopenr⟩, hkr⟩ := h
    refine Calm.bind (P := fun _ s' => s2 = s') (.assert rfl rfl) fun _ _ _ h => ?_
    subst h
    refine Calm.bind (P := fun a s' => s2 = s' ∧ vl = a) (.deref hvl ⟨rfl, rfl⟩) fun _ _ _ h => ?_
    obtain ⟨rfl, rfl⟩ := h
    refine Calm.bind (P := fun a s' => s2 = s' ∧ vr = a) (.deref hvr ⟨rfl, rfl⟩) fun _ _ _ h => ?_
    obtain ⟨rfl, rfl⟩ := h
    refine Calm.bind (P := fun t s' => s2 = s' ∧ checkBinary vl.type op vr.type = .ok t)
      (.checked (considered_checkBinary _ _ _) fun t ht => ⟨rfl, ht⟩) fun t _ _ h => ?_
    obtain ⟨rfl, ht⟩ := h
    have hx : considered (evalBinaryV vl op vr) = true := by
      refine considered_binary hokl hokr ?_
      have h := hq.2
      simp only [calmOp, Bool.or_eq_true, Bool.and_eq_true, Bool.not_eq_true'] at h
      rcases h with ((h | h) | h) | h
      · exact .inl h
      · exact .inr (.inl (hopenr h))
      · exact .inr (.inr (.inl ⟨hopenl h.1, h.2⟩))
      · cases hl : constE K l with
        | ok a =>
          cases hr : constE K r with
          | ok b =>
            simp only [hl, hr] at h
            refine .inr (.inr (.inr ⟨a, b, ?_, ?_, h⟩))
            · exact Option.some.inj (hvl.symm.trans (hkl a hl))
            · exact Option.some.inj (hvr.symm.trans (hkr b hr))
          | _ => simp [hl, hr] at h
        | _ => simp [hl] at h
    refine Calm.bind (P := fun w s' => s2 = s' ∧ Folds (evalBinaryV vl op vr) t w)
      (.foldResult hx fun w hw => ⟨rfl, hw⟩) fun w _ _ h => ?_
    obtain ⟨rfl, hw⟩ := h
    refine .pure ⟨hs, w, rfl, hokl.binary hokr ht hw, fun h => fold_unknown hw fun _ hx => binary_unknown ?_ hx⟩
    simp only [openE, Bool.or_eq_true] at h
    exact h.imp hopenl hopenr
  | .prefix k cv op e, s, hs, hr, hq => by
    rw [Ana.expr]
    simp only [calmE, Bool.and_eq_true] at hq
    have ih : Calm (fun e' s' => Valued K S bad.toList own seen e e' s' ∧ ∀ u, constE K e = .ok u → e'.cv = some (Value.known u))
        (Ana.expr n af e .full .normal) s := by
      have h := calmE_calm haf e hs hr.2 hq.1
      cases hc : constE K e with
      | ok u =>
        exact (h.and ((constE_calm hs.names e hr.2).1 u hc _ _)).mono fun e' s' _ h => ⟨h.1, fun u' hu => by cases hu; exact h.2.2.1⟩
      | _ => exact h.mono fun e' s' _ h => ⟨h, fun u' hu => by cases hu⟩
    refine Calm.bind ih fun e' s1 _ h => ?_
    obtain ⟨⟨hs, v, hv, hok, hopen⟩, hk⟩ := h
    refine Calm.bind (P := fun a s' => s1 = s' ∧ v = a) (.value hv ⟨rfl, rfl⟩) fun _ _ _ h => ?_
    obtain ⟨rfl, rfl⟩ := h
    refine Calm.bind (P := fun t s' => s1 = s' ∧ checkUnary op v.type = .ok t)
      (.checked (considered_checkUnary _ _) fun t ht => ⟨rfl, ht⟩) fun t _ _ h => ?_
    obtain ⟨rfl, ht⟩ := h
    have hx : considered (evalUnaryV op v) = true := by
      refine considered_unary hok ?_
      have h := hq.2
      simp only [calmPrefix, Bool.or_eq_true, decide_eq_true_eq] at h
      rcases h with (h | h) | h
      · exact .inl h
      · exact .inr (.inl (hopen h))
      · cases hc : constE K e with
        | ok a =>
          simp only [hc] at h
          exact .inr (.inr ⟨a, Option.some.inj (hv.symm.trans (hk a hc)), h⟩)
        | _ => simp [hc] at h
    refine Calm.bind (P := fun w s' => s1 = s' ∧ Folds (evalUnaryV op v) t w)
      (.foldResult hx fun w hw => ⟨rfl, hw⟩) fun w _ _ h => ?_
    obtain ⟨rfl, hw⟩ := h
    exact .pure ⟨hs, w, rfl, hok.pre ht hw, fun h => fold_unknown hw fun _ hx => unary_unknown (hopen h) hx⟩
  | .call k cv st name ref args, s, hs, hr, hq => call_calm haf args hs hr.2.2 hq

theorem call_calm {bad : Option Key} (haf : AfCalm K S bad.toList own seen af) {k : Key} {cv : Option Value} {st : Bool}
    {name : Name} {ref : Option Lookup} : (args : List AExpr) → {s : ASt} →
    CalmSt K S bad.toList own seen s → RawEs args → calmE K own bad (.call k cv st name ref args) = true →
    Calm (Valued K S bad.toList own seen (.call k cv st name ref args)) (Ana.expr n af (.call k cv st name ref args) .full .normal) s
  | args, s, hs, hr, hq => by
    rw [Ana.expr.eq_def]
    rw [calmE.eq_def] at hq
    cases ref with
    | none => cases hq
    | some r =>
      cases r with
      | param p => cases hq
      | builtin f =>
        simp only at hq
        refine Calm.bind (calmEs_calm haf args hs hr hq) fun args' s1 _ h => ?_
        obtain ⟨hs, ha⟩ := h
        refine Calm.bind (mapM_value_calm args' ha) fun vs _ _ h => ?_
        obtain ⟨rfl, hvs⟩ := h
        refine Calm.bind (P := fun _ s' => s1 = s') (.checked (considered_checkBuiltin _ _) fun _ _ => rfl) fun _ _ _ h => ?_
        subst h
        refine Calm.bind (P := fun w s' => s1 = s' ∧ evalBuiltinV f vs = .ok w)
          (.lift considered_builtin fun w hw => ⟨rfl, hw⟩) fun w _ _ h => ?_
        obtain ⟨rfl, hw⟩ := h
        exact .pure ⟨hs, w, rfl, VOk.builtin hvs hw, fun h => by simp [openE] at h⟩
      | node j =>
        simp only [Bool.and_eq_true, decide_eq_true_eq] at hq
        refine Calm.bind (calmEs_calm haf args hs hr hq.2) fun args' s1 _ h => ?_
        obtain ⟨hs, ha⟩ := h
        have hj : j ∉ bad.toList := by
          rw [Option.mem_toList]
          exact hq.1.2
        refine Calm.bind (callFunction_calm haf hs hj ha) fun r s2 _ h => ?_
        exact .pure ⟨h.1, r.2, rfl, h.2.1, fun _ => h.2.2⟩

theorem calmEs_calm {bad : Option Key} (haf : AfCalm K S bad.toList own seen af) : (es : List AExpr) → {s : ASt} →
    CalmSt K S bad.toList own seen s → RawEs es → calmEs K own bad es = true →
    Calm (fun es' s' => CalmSt K S bad.toList own seen s' ∧ ∀ a ∈ es', ∃ v, a.cv = some v ∧ VOk v)
      (Ana.exprs n af es .full .normal) s
  | [], s, hs, hr, hq => by
    rw [Ana.exprs]
    exact .pure ⟨hs, by simp⟩
  | e :: es, s, hs, hr, hq => by
    rw [Ana.exprs]
    simp only [calmEs, Bool.and_eq_true] at hq
    refine Calm.bind (calmE_calm haf e hs hr.1 hq.1) fun e' s1 _ h => ?_
    obtain ⟨hs, v, hv, hok, -⟩ := h
    refine Calm.bind (P := fun _ s' => s1 = s') (.value hv rfl) fun _ _ _ h => ?_
    subst h
    refine Calm.bind (calmEs_calm haf es hs hr.2 hq.2) fun es' s2 _ h => ?_
    refine .pure ⟨h.1, fun a ha => ?_⟩
    rcases List.mem_cons.1 ha with rfl | ha
    · exact ⟨v, hv, hok⟩
    · exact h.2 a ha

end

end

end Bms
