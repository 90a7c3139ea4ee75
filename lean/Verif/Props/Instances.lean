import Verif.Model.Instantiate
import Mathlib.Data.List.Forall2

/-!
# C45: instances of generic functions
-/

namespace Bms

/-! ## Specification: what a function refers to -/

mutual

/-- What the names in an expression refer to. -/
def refsE : AExpr → List Lookup
  | .literal .. => []
  | .id _ _ _ ref _ => ref.toList
  | .conversion _ _ e ty => refsE e ++ refsT ty
  | .ite _ _ l c r => refsE l ++ (refsE c ++ refsE r)
  | .binary _ _ _ l r => refsE l ++ refsE r
  | .prefix _ _ _ e => refsE e
  | .call _ _ _ _ ref args => ref.toList ++ refsEs args

/-- What the names in a type refer to. -/
def refsT : AType → List Lookup
  | .base .. => []
  | .uint _ _ _ w => refsE w

/-- What the names in several expressions refer to. -/
def refsEs : List AExpr → List Lookup
  | [] => []
  | e :: es => refsE e ++ refsEs es

end

/-- What the names in an optional part refer to. -/
def refsO {α : Type} (f : α → List Lookup) : Option α → List Lookup
  | none => []
  | some x => f x

mutual

/-- What the names in a statement refer to. -/
def refsS : AStmt → List Lookup
  | .const_ _ _ _ ty init => refsO refsT ty ++ refsE init
  | .let_ _ _ _ ty init => refsO refsT ty ++ refsO refsE init
  | .staticAssert _ _ e => refsE e
  | .ifThen _ _ c t => refsE c ++ refsS t
  | .ifElse _ _ c t e => refsE c ++ (refsS t ++ refsS e)
  | .while_ _ _ c b => refsE c ++ refsS b
  | .control _ _ _ e => refsO refsE e
  | .assign _ _ _ ref e => ref.toList ++ refsE e
  | .block _ _ ss => refsSs ss
  | .call e => refsE e

/-- What the names in several statements refer to. -/
def refsSs : List AStmt → List Lookup
  | [] => []
  | s :: ss => refsS s ++ refsSs ss

end

/-- What the names in the parameters refer to. -/
def refsPs : List AParam → List Lookup
  | [] => []
  | p :: ps => refsT p.type ++ refsPs ps

/-- What the names in a function refer to. -/
def refsF (f : AFn) : List Lookup :=
  refsPs f.params ++ (refsT f.ret ++ (refsO refsE f.requires_ ++ refsSs f.body))

/-- The reference is to a part of the function with these nodes and parameters, or to a builtin
function. -/
def Inside (nodes params : List Key) : Lookup → Prop
  | .builtin _ => True
  | .node k => k ∈ nodes
  | .param k => k ∈ params

/-- The same reference in a copy with offset `base`. -/
def Lookup.shift (base : Nat) : Lookup → Lookup
  | .builtin f => .builtin f
  | .node k => .node (k + base)
  | .param k => .param (k + base)

namespace Inst

variable {m : Remap}

theorem lookup_ok {ref ref' : Option Lookup} :
    lookup m ref = .ok ref' ↔
      (∀ r ∈ ref.toList, Inside m.nodes m.params r) ∧ ref' = ref.map (Lookup.shift m.base) := by
  cases ref with
  | none => simp [lookup, eq_comm]
  | some r =>
    cases r with
    | builtin f => simp [lookup, Inside, Lookup.shift, eq_comm]
    | node k =>
      simp only [lookup]
      split <;> simp_all [Inside, Lookup.shift, eq_comm]
    | param k =>
      simp only [lookup]
      split <;> simp_all [Inside, Lookup.shift, eq_comm]

theorem lookup_clean (ref : Option Lookup) :
    (∃ ref', lookup m ref = .ok ref') ∨ lookup m ref = .throws := by
  cases ref with
  | none => simp [lookup]
  | some r => cases r <;> simp only [lookup] <;> (try split) <;> simp

mutual

theorem expr_ok : (e e' : AExpr) → expr m e = .ok e' →
    (∀ r ∈ refsE e, Inside m.nodes m.params r) ∧ refsE e' = (refsE e).map (Lookup.shift m.base) ∧
      keysE e' = (keysE e).map (· + m.base)
  | .literal .., e', h => by
    simp only [expr, Outcome.ok.injEq] at h
    subst h
    simp [refsE, keysE]
  | .id .., e', h => by
    simp only [expr, Outcome.bind_eq_ok, Outcome.ok.injEq] at h
    obtain ⟨r, h, rfl⟩ := h
    obtain ⟨h1, rfl⟩ := lookup_ok.mp h
    refine ⟨h1, ?_, rfl⟩
    simp only [refsE]
    rename_i ref _
    cases ref <;> simp
  | .conversion _ _ e ty, e', h => by
    simp only [expr, Outcome.bind_eq_ok, Outcome.ok.injEq] at h
    obtain ⟨a, ha, b, hb, rfl⟩ := h
    obtain ⟨a1, a2, a3⟩ := expr_ok e a ha
    obtain ⟨b1, b2, b3⟩ := type_ok ty b hb
    refine ⟨?_, by simp [refsE, a2, b2], by simp [keysE, a3, b3]⟩
    simp only [refsE, List.mem_append]
    rintro r (hr | hr)
    · exact a1 r hr
    · exact b1 r hr
  | .ite _ _ l c r, e', h => by
    simp only [expr, Outcome.bind_eq_ok, Outcome.ok.injEq] at h
    obtain ⟨a, ha, b, hb, d, hd, rfl⟩ := h
    obtain ⟨a1, a2, a3⟩ := expr_ok l a ha
    obtain ⟨b1, b2, b3⟩ := expr_ok c b hb
    obtain ⟨d1, d2, d3⟩ := expr_ok r d hd
    refine ⟨?_, by simp [refsE, a2, b2, d2], by simp [keysE, a3, b3, d3]⟩
    simp only [refsE, List.mem_append]
    rintro r (hr | hr | hr)
    · exact a1 r hr
    · exact b1 r hr
    · exact d1 r hr
  | .binary _ _ _ l r, e', h => by
    simp only [expr, Outcome.bind_eq_ok, Outcome.ok.injEq] at h
    obtain ⟨a, ha, b, hb, rfl⟩ := h
    obtain ⟨a1, a2, a3⟩ := expr_ok l a ha
    obtain ⟨b1, b2, b3⟩ := expr_ok r b hb
    refine ⟨?_, by simp [refsE, a2, b2], by simp [keysE, a3, b3]⟩
    simp only [refsE, List.mem_append]
    rintro r (hr | hr)
    · exact a1 r hr
    · exact b1 r hr
  | .prefix _ _ _ e, e', h => by
    simp only [expr, Outcome.bind_eq_ok, Outcome.ok.injEq] at h
    obtain ⟨a, ha, rfl⟩ := h
    obtain ⟨a1, a2, a3⟩ := expr_ok e a ha
    exact ⟨by simpa only [refsE] using a1, by simp [refsE, a2], by simp [keysE, a3]⟩
  | .call _ _ _ _ ref args, e', h => by
    simp only [expr, Outcome.bind_eq_ok, Outcome.ok.injEq] at h
    obtain ⟨r, h, a, ha, rfl⟩ := h
    obtain ⟨h1, rfl⟩ := lookup_ok.mp h
    obtain ⟨a1, a2, a3⟩ := exprs_ok args a ha
    refine ⟨?_, ?_, by simp [keysE, a3]⟩
    · simp only [refsE, List.mem_append]
      rintro r (hr | hr)
      · exact h1 r hr
      · exact a1 r hr
    · simp only [refsE, a2]
      cases ref <;> simp

theorem type_ok : (ty ty' : AType) → type m ty = .ok ty' →
    (∀ r ∈ refsT ty, Inside m.nodes m.params r) ∧ refsT ty' = (refsT ty).map (Lookup.shift m.base) ∧
      keysT ty' = (keysT ty).map (· + m.base)
  | .base .., ty', h => by
    simp only [type, Outcome.ok.injEq] at h
    subst h
    simp [refsT, keysT]
  | .uint _ _ _ w, ty', h => by
    simp only [type, Outcome.bind_eq_ok, Outcome.ok.injEq] at h
    obtain ⟨a, ha, rfl⟩ := h
    obtain ⟨a1, a2, a3⟩ := expr_ok w a ha
    exact ⟨by simpa only [refsT] using a1, by simp [refsT, a2], by simp [keysT, a3]⟩

theorem exprs_ok : (es es' : List AExpr) → exprs m es = .ok es' →
    (∀ r ∈ refsEs es, Inside m.nodes m.params r) ∧
      refsEs es' = (refsEs es).map (Lookup.shift m.base) ∧
      keysEs es' = (keysEs es).map (· + m.base)
  | [], es', h => by
    simp only [exprs, Outcome.ok.injEq] at h
    subst h
    simp [refsEs, keysEs]
  | e :: es, es', h => by
    simp only [exprs, Outcome.bind_eq_ok, Outcome.ok.injEq] at h
    obtain ⟨a, ha, b, hb, rfl⟩ := h
    obtain ⟨a1, a2, a3⟩ := expr_ok e a ha
    obtain ⟨b1, b2, b3⟩ := exprs_ok es b hb
    refine ⟨?_, by simp [refsEs, a2, b2], by simp [keysEs, a3, b3]⟩
    simp only [refsEs, List.mem_append]
    rintro r (hr | hr)
    · exact a1 r hr
    · exact b1 r hr

end

theorem optional_ok {α : Type} {f : α → Outcome AErr α} {g : α → List Lookup} {ks : α → List Key}
    (hf : ∀ x x', f x = .ok x' → (∀ r ∈ g x, Inside m.nodes m.params r) ∧
      g x' = (g x).map (Lookup.shift m.base) ∧ ks x' = (ks x).map (· + m.base))
    (o o' : Option α) (h : Names.optional f o = .ok o') :
    (∀ r ∈ refsO g o, Inside m.nodes m.params r) ∧ refsO g o' = (refsO g o).map (Lookup.shift m.base) ∧
      keysO ks o' = (keysO ks o).map (· + m.base) := by
  cases o with
  | none =>
    simp only [Names.optional, Outcome.ok.injEq] at h
    subst h
    simp [refsO, keysO]
  | some x =>
    simp only [Names.optional, Outcome.bind_eq_ok, Outcome.ok.injEq] at h
    obtain ⟨a, ha, rfl⟩ := h
    exact hf x a ha

mutual

theorem stmt_ok : (s s' : AStmt) → stmt m s = .ok s' →
    (∀ r ∈ refsS s, Inside m.nodes m.params r) ∧ refsS s' = (refsS s).map (Lookup.shift m.base) ∧
      keysS s' = (keysS s).map (· + m.base)
  | .const_ _ _ _ ty init, s', h => by
    simp only [stmt, Outcome.bind_eq_ok, Outcome.ok.injEq] at h
    obtain ⟨a, ha, b, hb, rfl⟩ := h
    obtain ⟨a1, a2, a3⟩ := optional_ok type_ok ty a ha
    obtain ⟨b1, b2, b3⟩ := expr_ok init b hb
    refine ⟨?_, by simp [refsS, a2, b2], by simp [keysS, a3, b3]⟩
    simp only [refsS, List.mem_append]
    rintro r (hr | hr)
    · exact a1 r hr
    · exact b1 r hr
  | .let_ _ _ _ ty init, s', h => by
    simp only [stmt, Outcome.bind_eq_ok, Outcome.ok.injEq] at h
    obtain ⟨a, ha, b, hb, rfl⟩ := h
    obtain ⟨a1, a2, a3⟩ := optional_ok type_ok ty a ha
    obtain ⟨b1, b2, b3⟩ := optional_ok expr_ok init b hb
    refine ⟨?_, by simp [refsS, a2, b2], by simp [keysS, a3, b3]⟩
    simp only [refsS, List.mem_append]
    rintro r (hr | hr)
    · exact a1 r hr
    · exact b1 r hr
  | .staticAssert _ _ e, s', h => by
    simp only [stmt, Outcome.bind_eq_ok, Outcome.ok.injEq] at h
    obtain ⟨a, ha, rfl⟩ := h
    obtain ⟨a1, a2, a3⟩ := expr_ok e a ha
    exact ⟨by simpa only [refsS] using a1, by simp [refsS, a2], by simp [keysS, a3]⟩
  | .ifThen _ _ c t, s', h => by
    simp only [stmt, Outcome.bind_eq_ok, Outcome.ok.injEq] at h
    obtain ⟨a, ha, b, hb, rfl⟩ := h
    obtain ⟨a1, a2, a3⟩ := expr_ok c a ha
    obtain ⟨b1, b2, b3⟩ := stmt_ok t b hb
    refine ⟨?_, by simp [refsS, a2, b2], by simp [keysS, a3, b3]⟩
    simp only [refsS, List.mem_append]
    rintro r (hr | hr)
    · exact a1 r hr
    · exact b1 r hr
  | .ifElse _ _ c t e, s', h => by
    simp only [stmt, Outcome.bind_eq_ok, Outcome.ok.injEq] at h
    obtain ⟨a, ha, b, hb, d, hd, rfl⟩ := h
    obtain ⟨a1, a2, a3⟩ := expr_ok c a ha
    obtain ⟨b1, b2, b3⟩ := stmt_ok t b hb
    obtain ⟨d1, d2, d3⟩ := stmt_ok e d hd
    refine ⟨?_, by simp [refsS, a2, b2, d2], by simp [keysS, a3, b3, d3]⟩
    simp only [refsS, List.mem_append]
    rintro r (hr | hr | hr)
    · exact a1 r hr
    · exact b1 r hr
    · exact d1 r hr
  | .while_ _ _ c b, s', h => by
    simp only [stmt, Outcome.bind_eq_ok, Outcome.ok.injEq] at h
    obtain ⟨a, ha, d, hd, rfl⟩ := h
    obtain ⟨a1, a2, a3⟩ := expr_ok c a ha
    obtain ⟨b1, b2, b3⟩ := stmt_ok b d hd
    refine ⟨?_, by simp [refsS, a2, b2], by simp [keysS, a3, b3]⟩
    simp only [refsS, List.mem_append]
    rintro r (hr | hr)
    · exact a1 r hr
    · exact b1 r hr
  | .control _ _ _ e, s', h => by
    simp only [stmt, Outcome.bind_eq_ok, Outcome.ok.injEq] at h
    obtain ⟨a, ha, rfl⟩ := h
    obtain ⟨a1, a2, a3⟩ := optional_ok expr_ok e a ha
    exact ⟨by simpa only [refsS] using a1, by simp [refsS, a2], by simp [keysS, a3]⟩
  | .assign _ _ _ ref e, s', h => by
    simp only [stmt, Outcome.bind_eq_ok, Outcome.ok.injEq] at h
    obtain ⟨r, h, a, ha, rfl⟩ := h
    obtain ⟨h1, rfl⟩ := lookup_ok.mp h
    obtain ⟨a1, a2, a3⟩ := expr_ok e a ha
    refine ⟨?_, ?_, by simp [keysS, a3]⟩
    · simp only [refsS, List.mem_append]
      rintro r (hr | hr)
      · exact h1 r hr
      · exact a1 r hr
    · simp only [refsS, a2]
      cases ref <;> simp
  | .block _ _ ss, s', h => by
    simp only [stmt, Outcome.bind_eq_ok, Outcome.ok.injEq] at h
    obtain ⟨a, ha, rfl⟩ := h
    obtain ⟨a1, a2, a3⟩ := stmts_ok ss a ha
    exact ⟨by simpa only [refsS] using a1, by simp [refsS, a2], by simp [keysS, a3]⟩
  | .call e, s', h => by
    simp only [stmt, Outcome.bind_eq_ok, Outcome.ok.injEq] at h
    obtain ⟨a, ha, rfl⟩ := h
    obtain ⟨a1, a2, a3⟩ := expr_ok e a ha
    exact ⟨by simpa only [refsS] using a1, by simp [refsS, a2], by simp [keysS, a3]⟩

theorem stmts_ok : (ss ss' : List AStmt) → stmts m ss = .ok ss' →
    (∀ r ∈ refsSs ss, Inside m.nodes m.params r) ∧
      refsSs ss' = (refsSs ss).map (Lookup.shift m.base) ∧
      keysSs ss' = (keysSs ss).map (· + m.base)
  | [], ss', h => by
    simp only [stmts, Outcome.ok.injEq] at h
    subst h
    simp [refsSs, keysSs]
  | s :: ss, ss', h => by
    simp only [stmts, Outcome.bind_eq_ok, Outcome.ok.injEq] at h
    obtain ⟨a, ha, b, hb, rfl⟩ := h
    obtain ⟨a1, a2, a3⟩ := stmt_ok s a ha
    obtain ⟨b1, b2, b3⟩ := stmts_ok ss b hb
    refine ⟨?_, by simp [refsSs, a2, b2], by simp [keysSs, a3, b3]⟩
    simp only [refsSs, List.mem_append]
    rintro r (hr | hr)
    · exact a1 r hr
    · exact b1 r hr

end

theorem params_ok : (ps ps' : List AParam) → params m ps = .ok ps' →
    (∀ r ∈ refsPs ps, Inside m.nodes m.params r) ∧
      refsPs ps' = (refsPs ps).map (Lookup.shift m.base) ∧
      ps'.flatMap (fun p => keysT p.type) = (ps.flatMap fun p => keysT p.type).map (· + m.base) ∧
      ps'.map AParam.k = (ps.map AParam.k).map (· + m.base)
  | [], ps', h => by
    simp only [params, Outcome.ok.injEq] at h
    subst h
    simp [refsPs]
  | p :: ps, ps', h => by
    simp only [params, Outcome.bind_eq_ok, Outcome.ok.injEq] at h
    obtain ⟨a, ha, b, hb, rfl⟩ := h
    obtain ⟨a1, a2, a3⟩ := type_ok p.type a ha
    obtain ⟨b1, b2, b3, b4⟩ := params_ok ps b hb
    refine ⟨?_, by simp [refsPs, a2, b2], by simp [a3, b3], by simp [b4]⟩
    simp only [refsPs, List.mem_append]
    rintro r (hr | hr)
    · exact a1 r hr
    · exact b1 r hr

/-! ### Copies that fail -/

theorem bind_clean {α β : Type} {x : Outcome AErr α} {f : α → Outcome AErr β}
    (hx : (∃ a, x = .ok a) ∨ x = .throws) (hf : ∀ a, (∃ b, f a = .ok b) ∨ f a = .throws) :
    (∃ b, (x >>= f) = .ok b) ∨ (x >>= f) = .throws := by
  rcases hx with ⟨a, rfl⟩ | rfl
  · exact hf a
  · exact .inr rfl

mutual

theorem expr_clean : (e : AExpr) → (∃ e', expr m e = .ok e') ∨ expr m e = .throws
  | .literal .. => .inl ⟨_, rfl⟩
  | .id _ _ _ ref _ => bind_clean (lookup_clean ref) fun _ => .inl ⟨_, rfl⟩
  | .conversion _ _ e ty => bind_clean (expr_clean e) fun _ =>
      bind_clean (type_clean ty) fun _ => .inl ⟨_, rfl⟩
  | .ite _ _ l c r => bind_clean (expr_clean l) fun _ => bind_clean (expr_clean c) fun _ =>
      bind_clean (expr_clean r) fun _ => .inl ⟨_, rfl⟩
  | .binary _ _ _ l r => bind_clean (expr_clean l) fun _ =>
      bind_clean (expr_clean r) fun _ => .inl ⟨_, rfl⟩
  | .prefix _ _ _ e => bind_clean (expr_clean e) fun _ => .inl ⟨_, rfl⟩
  | .call _ _ _ _ ref args => bind_clean (lookup_clean ref) fun _ =>
      bind_clean (exprs_clean args) fun _ => .inl ⟨_, rfl⟩

theorem type_clean : (ty : AType) → (∃ ty', type m ty = .ok ty') ∨ type m ty = .throws
  | .base .. => .inl ⟨_, rfl⟩
  | .uint _ _ _ w => bind_clean (expr_clean w) fun _ => .inl ⟨_, rfl⟩

theorem exprs_clean : (es : List AExpr) → (∃ es', exprs m es = .ok es') ∨ exprs m es = .throws
  | [] => .inl ⟨_, rfl⟩
  | e :: es => bind_clean (expr_clean e) fun _ => bind_clean (exprs_clean es) fun _ => .inl ⟨_, rfl⟩

end

theorem optional_clean {α : Type} {f : α → Outcome AErr α}
    (hf : ∀ x, (∃ x', f x = .ok x') ∨ f x = .throws) (o : Option α) :
    (∃ o', Names.optional f o = .ok o') ∨ Names.optional f o = .throws := by
  cases o with
  | none => exact .inl ⟨_, rfl⟩
  | some x => exact bind_clean (hf x) fun _ => .inl ⟨_, rfl⟩

mutual

theorem stmt_clean : (s : AStmt) → (∃ s', stmt m s = .ok s') ∨ stmt m s = .throws
  | .const_ _ _ _ ty init => bind_clean (optional_clean type_clean ty) fun _ =>
      bind_clean (expr_clean init) fun _ => .inl ⟨_, rfl⟩
  | .let_ _ _ _ ty init => bind_clean (optional_clean type_clean ty) fun _ =>
      bind_clean (optional_clean expr_clean init) fun _ => .inl ⟨_, rfl⟩
  | .staticAssert _ _ e => bind_clean (expr_clean e) fun _ => .inl ⟨_, rfl⟩
  | .ifThen _ _ c t => bind_clean (expr_clean c) fun _ => bind_clean (stmt_clean t) fun _ =>
      .inl ⟨_, rfl⟩
  | .ifElse _ _ c t e => bind_clean (expr_clean c) fun _ => bind_clean (stmt_clean t) fun _ =>
      bind_clean (stmt_clean e) fun _ => .inl ⟨_, rfl⟩
  | .while_ _ _ c b => bind_clean (expr_clean c) fun _ => bind_clean (stmt_clean b) fun _ =>
      .inl ⟨_, rfl⟩
  | .control _ _ _ e => bind_clean (optional_clean expr_clean e) fun _ => .inl ⟨_, rfl⟩
  | .assign _ _ _ ref e => bind_clean (lookup_clean ref) fun _ => bind_clean (expr_clean e) fun _ =>
      .inl ⟨_, rfl⟩
  | .block _ _ ss => bind_clean (stmts_clean ss) fun _ => .inl ⟨_, rfl⟩
  | .call e => bind_clean (expr_clean e) fun _ => .inl ⟨_, rfl⟩

theorem stmts_clean : (ss : List AStmt) → (∃ ss', stmts m ss = .ok ss') ∨ stmts m ss = .throws
  | [] => .inl ⟨_, rfl⟩
  | s :: ss => bind_clean (stmt_clean s) fun _ => bind_clean (stmts_clean ss) fun _ => .inl ⟨_, rfl⟩

end

theorem params_clean : (ps : List AParam) → (∃ ps', params m ps = .ok ps') ∨ params m ps = .throws
  | [] => .inl ⟨_, rfl⟩
  | p :: ps => bind_clean (type_clean p.type) fun _ => bind_clean (params_clean ps) fun _ =>
      .inl ⟨_, rfl⟩

theorem copy_ok {base : Nat} {f g : AFn} (h : copy base f = .ok g) :
    (∀ r ∈ refsF f, Inside (keys f) (f.params.map AParam.k) r) ∧
      refsF g = (refsF f).map (Lookup.shift base) ∧ keys g = (keys f).map (· + base) ∧
      g.params.map AParam.k = (f.params.map AParam.k).map (· + base) ∧ g.k = f.k + base ∧
      g.generic = false ∧ g.instances = [] ∧ g.level = .unanalyzed := by
  simp only [copy] at h
  split at h
  · simp at h
  simp only [Outcome.bind_eq_ok, Outcome.ok.injEq] at h
  obtain ⟨ps, h1, ret, h2, req, h3, body, h4, rfl⟩ := h
  obtain ⟨a1, a2, a3, a4⟩ := params_ok _ _ h1
  obtain ⟨b1, b2, b3⟩ := type_ok _ _ h2
  obtain ⟨c1, c2, c3⟩ := optional_ok expr_ok _ _ h3
  obtain ⟨d1, d2, d3⟩ := stmts_ok _ _ h4
  refine ⟨?_, by simp [refsF, a2, b2, c2, d2], by simp [keys, a3, b3, c3, d3], a4, rfl, rfl, rfl, rfl⟩
  simp only [refsF, List.mem_append]
  rintro r (hr | hr | hr | hr)
  · exact a1 r hr
  · exact b1 r hr
  · exact c1 r hr
  · exact d1 r hr

/-! ### Widths -/

/-- How many widths the parameters have that are deduced. -/
def widthCount (ps : List AParam) : Nat :=
  (ps.filter fun p => match p.type with
    | .uint _ _ _ (.id _ _ _ _ true) => true
    | _ => false).length

/-- The widths of the parameters with deduced width, in a function or instance. -/
def widthsOf : List AParam → List (Option Nat × Option Value)
  | [] => []
  | p :: ps => match p.type with
    | .uint _ _ c (.id _ cv _ _ true) => (c, cv) :: widthsOf ps
    | _ => widthsOf ps

theorem substitute_ok (w : List Nat) (ps : List AParam) : ∀ (ws ws' : List Nat) (ps' : List AParam),
    substitute w ws ps = .ok (ws', ps') →
    ws' = ws ++ (w.drop ws.length).take (widthCount ps) ∧ ws.length + widthCount ps = ws'.length ∧
      widthsOf ps' = ((w.drop ws.length).take (widthCount ps)).map
        (fun x : Nat => (some x, some (Value.known (CVal.ofInt x)))) ∧ ps'.length = ps.length := by
  induction ps with
  | nil =>
    intro ws ws' ps' h
    simp only [substitute, Outcome.ok.injEq, Prod.mk.injEq] at h
    obtain ⟨rfl, rfl⟩ := h
    simp [widthCount, widthsOf]
  | cons p ps ih =>
    intro ws ws' ps' h
    simp only [substitute] at h
    split at h
    · rename_i k cv c ki cvi name ref hp
      simp only [Outcome.bind_eq_ok, Outcome.ok.injEq, Prod.mk.injEq] at h
      obtain ⟨x, hx, ⟨ws1, ps1⟩, h1, rfl, rfl⟩ := h
      obtain ⟨a, b, d, e⟩ := ih _ _ _ h1
      have hw : w.drop ws.length = x :: w.drop (ws.length + 1) := by
        simp only [getWidth] at hx
        split at hx
        · rename_i y hy
          simp only [Outcome.ok.injEq] at hx
          subst hx
          obtain ⟨hlt, rfl⟩ := List.getElem?_eq_some_iff.mp hy
          exact List.drop_eq_getElem_cons hlt
        · simp at hx
      have hc : widthCount (p :: ps) = widthCount ps + 1 := by simp [widthCount, hp]
      simp only [List.length_append, List.length_singleton] at a b d
      refine ⟨?_, ?_, ?_, by simp [e]⟩
      · rw [a, hc, hw, List.take_succ_cons]
        simp
      · show _ = ws1.length
        omega
      · rw [hc, hw, List.take_succ_cons]
        simp only [widthsOf, d, List.map_cons]
    · rename_i hp
      simp only [Outcome.bind_eq_ok, Outcome.ok.injEq, Prod.mk.injEq] at h
      obtain ⟨⟨ws1, ps1⟩, h1, rfl, rfl⟩ := h
      obtain ⟨a, b, d, e⟩ := ih _ _ _ h1
      have hn : (match p.type with
          | .uint _ _ _ (.id _ _ _ _ true) => true
          | _ => false) = false := by
        split
        · rename_i heq
          exact absurd heq (hp _ _ _ _ _ _ _)
        · rfl
      have hc : widthCount (p :: ps) = widthCount ps := by simp [widthCount, hn]
      have hwo : widthsOf (p :: ps1) = widthsOf ps1 := by
        rw [widthsOf]
        split
        · rename_i heq
          exact absurd heq (hp _ _ _ _ _ _ _)
        · rfl
      refine ⟨by rw [a, hc], by show _ = ws1.length; omega, by rw [hwo, d, hc], by simp [e]⟩

theorem hasWidths_eq (w : List Nat) (xs : List Nat) : ∀ (i : Nat) (b : Bool),
    hasWidths w i xs = .ok b → (b = true ↔ (w.drop i).take xs.length = xs) := by
  induction xs with
  | nil =>
    intro i b h
    simp only [hasWidths, Outcome.ok.injEq] at h
    simp [← h]
  | cons x xs ih =>
    intro i b h
    simp only [hasWidths, Outcome.bind_eq_ok] at h
    obtain ⟨y, hy, h⟩ := h
    have hw : w.drop i = y :: w.drop (i + 1) := by
      simp only [getWidth] at hy
      split at hy
      · rename_i z hz
        simp only [Outcome.ok.injEq] at hy
        subst hy
        obtain ⟨hlt, rfl⟩ := List.getElem?_eq_some_iff.mp hz
        exact List.drop_eq_getElem_cons hlt
      · simp at hy
    rw [hw, List.length_cons, List.take_succ_cons, List.cons.injEq]
    split at h
    · rename_i hne
      simp only [Outcome.ok.injEq] at h
      subst h
      simp only [Bool.false_eq_true, false_iff, not_and]
      exact fun h1 => absurd h1.symm hne
    · rename_i heq
      simp only [ne_eq, not_not] at heq
      rw [ih _ _ h]
      simp [heq]

theorem findInstance_spec (w : List Nat) (is : List AInstance) : ∀ (r : Option AInstance),
    findInstance w is = .ok r →
    (∀ i, r = some i → i ∈ is ∧ w.take i.widths.length = i.widths) ∧
      (r = none → ∀ i ∈ is, w.take i.widths.length ≠ i.widths) := by
  induction is with
  | nil =>
    intro r h
    simp only [findInstance, Outcome.ok.injEq] at h
    subst h
    simp
  | cons i is ih =>
    intro r h
    simp only [findInstance, Outcome.bind_eq_ok] at h
    obtain ⟨b, hb, h⟩ := h
    have hb' := hasWidths_eq w i.widths 0 b hb
    simp only [List.drop_zero] at hb'
    cases b with
    | true =>
      simp only [if_true, Outcome.ok.injEq] at h
      subst h
      simp only [Option.some.injEq, forall_eq', reduceCtorEq, false_implies, and_true]
      exact ⟨by simp, hb'.mp rfl⟩
    | false =>
      simp only [Bool.false_eq_true, if_false] at h
      obtain ⟨h1, h2⟩ := ih r h
      refine ⟨fun j hj => ⟨List.mem_cons_of_mem _ (h1 j hj).1, (h1 j hj).2⟩, fun hr j hj => ?_⟩
      simp only [List.mem_cons] at hj
      rcases hj with rfl | hj
      · intro h'
        exact absurd (hb'.mpr h') (by simp)
      · exact h2 hr j hj

mutual

/-- An identifier stays an identifier. -/
theorem params_count : (ps ps' : List AParam) → params m ps = .ok ps' →
    widthCount ps' = widthCount ps
  | [], ps', h => by
    simp only [params, Outcome.ok.injEq] at h
    subst h
    rfl
  | p :: ps, ps', h => by
    simp only [params, Outcome.bind_eq_ok, Outcome.ok.injEq] at h
    obtain ⟨a, ha, b, hb, rfl⟩ := h
    have ih := params_count ps b hb
    have : (match a with
          | .uint _ _ _ (.id _ _ _ _ true) => true
          | _ => false) = (match p.type with
          | .uint _ _ _ (.id _ _ _ _ true) => true
          | _ => false) := by
      cases hp : p.type with
      | base k cv t =>
        rw [hp] at ha
        simp only [type, Outcome.ok.injEq] at ha
        subst ha
        rfl
      | uint k cv c w =>
        rw [hp] at ha
        simp only [type, Outcome.bind_eq_ok, Outcome.ok.injEq] at ha
        obtain ⟨w', hw, rfl⟩ := ha
        cases w <;> simp only [expr, Outcome.bind_eq_ok, Outcome.ok.injEq] at hw
        case id g =>
          obtain ⟨r, _, rfl⟩ := hw
          cases g <;> rfl
        case literal => subst hw; rfl
        case conversion => obtain ⟨_, _, _, _, rfl⟩ := hw; rfl
        case ite => obtain ⟨_, _, _, _, _, _, rfl⟩ := hw; rfl
        case binary => obtain ⟨_, _, _, _, rfl⟩ := hw; rfl
        case «prefix» => obtain ⟨_, _, rfl⟩ := hw; rfl
        case call => obtain ⟨_, _, _, _, rfl⟩ := hw; rfl
    simp only [widthCount, List.filter_cons] at ih ⊢
    rw [this]
    split <;> simp [ih]

end

end Inst

/-! ## Requests -/

/-- A request for an instance in a program, where `st.1` is the generic function and `st.2` is larger
than all keys in use: the instance, and what has become of the function. Compare `Ana.callee`. -/
def requestInstance (st : AFn × Nat) (w : List Nat) : Outcome AErr (AInstance × (AFn × Nat)) := do
  match ← Inst.function st.2 st.1 w with
  | (i, none) => .ok (i, st)
  | (i, some _) => .ok (i, ({ st.1 with instances := st.1.instances ++ [i] }, st.2 + st.2))

/-- Several requests one after the other. -/
def requestInstances (st : AFn × Nat) : List (List Nat) → Outcome AErr (List AInstance × (AFn × Nat))
  | [] => .ok ([], st)
  | w :: ws => do
    let (i, st) ← requestInstance st w
    let (is, st) ← requestInstances st ws
    .ok (i :: is, st)

/-- The table of instances: every instance has as many widths as the function, and widths and keys
determine each other; keys are in use. -/
structure InstancesOk (st : AFn × Nat) : Prop where
  base : 0 < st.2
  length : ∀ i ∈ st.1.instances, i.widths.length = Inst.widthCount st.1.params
  unique : ∀ i ∈ st.1.instances, ∀ j ∈ st.1.instances, (i.key = j.key ↔ i.widths = j.widths)
  used : ∀ i ∈ st.1.instances, i.key < st.1.k + st.2

theorem requestInstance_ok {st st' : AFn × Nat} {w : List Nat} {i : AInstance} (h : InstancesOk st)
    (hw : w.length = Inst.widthCount st.1.params) (hr : requestInstance st w = .ok (i, st')) :
    InstancesOk st' ∧ st'.1.params = st.1.params ∧ i.widths = w ∧ i ∈ st'.1.instances ∧
      ∀ j ∈ st.1.instances, j ∈ st'.1.instances := by
  obtain ⟨f, base⟩ := st
  simp only [requestInstance, Inst.function, Outcome.bind_eq_ok, Outcome.assert] at hr
  obtain ⟨⟨i', g⟩, ⟨_, -, r, h1, h2⟩, h3⟩ := hr
  obtain ⟨f1, f2⟩ := Inst.findInstance_spec w f.instances r h1
  cases r with
  | some j =>
    simp only [Outcome.ok.injEq, Prod.mk.injEq] at h2
    obtain ⟨rfl, rfl⟩ := h2
    simp only [Outcome.ok.injEq, Prod.mk.injEq] at h3
    obtain ⟨rfl, rfl⟩ := h3
    obtain ⟨hm, ht⟩ := f1 _ rfl
    refine ⟨h, rfl, ?_, hm, fun _ h => h⟩
    rw [← ht, h.length _ hm, ← hw]
    simp
  | none =>
    simp only [Outcome.bind_eq_ok, Outcome.ok.injEq, Prod.mk.injEq] at h2
    obtain ⟨g', hg, ⟨ws, ps⟩, hs, rfl, rfl⟩ := h2
    simp only [Outcome.ok.injEq, Prod.mk.injEq] at h3
    obtain ⟨rfl, rfl⟩ := h3
    obtain ⟨-, -, -, -, hk, -⟩ := Inst.copy_ok hg
    have hcount : Inst.widthCount g'.params = Inst.widthCount f.params := by
      simp only [Inst.copy] at hg
      split at hg
      · simp at hg
      simp only [Outcome.bind_eq_ok, Outcome.ok.injEq] at hg
      obtain ⟨ps', hps, ret, _, req, _, body, _, rfl⟩ := hg
      exact Inst.params_count _ _ hps
    obtain ⟨a, b, -, -⟩ := Inst.substitute_ok w g'.params [] ws ps hs
    have hws : ws = w := by
      rw [a, hcount, ← hw]
      simp
    subst hws
    have hlt : ∀ j ∈ f.instances, j.key < f.k + base := h.used
    have hne : ∀ j ∈ f.instances, j.widths ≠ ws := by
      intro j hj hjw
      refine f2 rfl j hj ?_
      rw [hjw]
      simp
    have hb : 0 < base := h.base
    replace hk : g'.k = f.k + base := hk
    refine ⟨⟨?_, ?_, ?_, ?_⟩, rfl, rfl, by simp, fun j hj => by simp [hj]⟩
    · show 0 < base + base
      omega
    · simp only [List.mem_append, List.mem_singleton]
      rintro j (hj | rfl)
      · exact h.length j hj
      · exact hw
    · simp only [List.mem_append, List.mem_singleton]
      rintro j (hj | rfl) k (hk' | rfl)
      · exact h.unique j hj k hk'
      · simp only [hne j hj, iff_false]
        exact Nat.ne_of_lt (Nat.lt_of_lt_of_eq (hlt j hj) hk.symm)
      · simp only [Ne.symm (hne k hk'), iff_false]
        exact (Nat.ne_of_lt (Nat.lt_of_lt_of_eq (hlt k hk') hk.symm)).symm
      · simp
    · simp only [List.mem_append, List.mem_singleton]
      rintro j (hj | rfl)
      · exact Nat.lt_of_lt_of_le (hlt j hj) (Nat.add_le_add_left (Nat.le_add_left _ _) _)
      · exact Nat.lt_of_le_of_lt (Nat.le_of_eq hk)
          (Nat.add_lt_add_left (Nat.lt_add_of_pos_left hb) _)

theorem requestInstances_ok (ws : List (List Nat)) : ∀ {st st' : AFn × Nat} {is : List AInstance},
    InstancesOk st → (∀ w ∈ ws, w.length = Inst.widthCount st.1.params) →
    requestInstances st ws = .ok (is, st') →
    InstancesOk st' ∧ is.map AInstance.widths = ws ∧ (∀ i ∈ is, i ∈ st'.1.instances) ∧
      ∀ j ∈ st.1.instances, j ∈ st'.1.instances := by
  induction ws with
  | nil =>
    intro st st' is h _ hr
    simp only [requestInstances, Outcome.ok.injEq, Prod.mk.injEq] at hr
    obtain ⟨rfl, rfl⟩ := hr
    simp [h]
  | cons w ws ih =>
    intro st st' is h hw hr
    simp only [requestInstances, Outcome.bind_eq_ok, Outcome.ok.injEq, Prod.mk.injEq] at hr
    obtain ⟨⟨i, st1⟩, h1, ⟨is1, st2⟩, h2, rfl, rfl⟩ := hr
    obtain ⟨a, b, c, d, e⟩ := requestInstance_ok h (hw w (by simp)) h1
    obtain ⟨a', b', c', d'⟩ := ih a (fun w' hw' => by rw [b]; exact hw w' (by simp [hw'])) h2
    refine ⟨a', by simp [c, b'], ?_, fun j hj => d' j (e j hj)⟩
    simp only [List.mem_cons]
    rintro j (rfl | hj)
    · exact d' _ d
    · exact c' j hj

/-- Requests for instances of a generic function, one after the other: every answer is an instance with
the requested widths, and two answers are the same instance exactly if the widths are the same. -/
theorem C45_instances (f : AFn) (base : Nat) (hb : 0 < base) (hi : f.instances = [])
    (ws : List (List Nat)) (hw : ∀ w ∈ ws, w.length = Inst.widthCount f.params)
    (is : List AInstance) (st : AFn × Nat) (h : requestInstances (f, base) ws = .ok (is, st)) :
    is.map AInstance.widths = ws ∧
      ∀ i ∈ is, ∀ j ∈ is, (i.key = j.key ↔ i.widths = j.widths) := by
  have h0 : InstancesOk (f, base) := ⟨hb, by simp [hi], by simp [hi], by simp [hi]⟩
  obtain ⟨a, b, c, -⟩ := requestInstances_ok ws h0 hw h
  exact ⟨b, fun i hi j hj => a.unique i (c i hi) j (c j hj)⟩

/-- A new instance: its parameters have the requested widths, it is not generic, its nodes are new, and
the names in it refer to its own nodes and parameters in the same way as those of the generic function
refer to nodes and parameters of the generic function. -/
theorem C45_copy (base : Nat) (f g : AFn) (w : List Nat) (i : AInstance)
    (h : Inst.function base f w = .ok (i, some g)) :
    i.key = g.k ∧ g.k = f.k + base ∧ g.generic = false ∧
      Inst.widthsOf g.params =
        (w.take (Inst.widthCount f.params)).map (fun x : Nat => (some x, some (Value.known (CVal.ofInt x)))) ∧
      refsSs g.body = (refsSs f.body).map (Lookup.shift base) ∧
      refsT g.ret = (refsT f.ret).map (Lookup.shift base) ∧
      (∀ r ∈ refsF f, Inside (Inst.keys f) (f.params.map AParam.k) r) := by
  simp only [Inst.function, Outcome.bind_eq_ok, Outcome.assert] at h
  obtain ⟨_, -, r, h1, h2⟩ := h
  cases r with
  | some j => simp at h2
  | none =>
    simp only [Outcome.bind_eq_ok, Outcome.ok.injEq, Prod.mk.injEq, Option.some.injEq] at h2
    obtain ⟨g', hg, ⟨ws, ps⟩, hs, rfl, rfl⟩ := h2
    obtain ⟨a1, a2, a3, a4, a5, a6, a7, a8⟩ := Inst.copy_ok hg
    have hparts : refsSs g'.body = (refsSs f.body).map (Lookup.shift base) ∧
        refsT g'.ret = (refsT f.ret).map (Lookup.shift base) ∧
        Inst.widthCount g'.params = Inst.widthCount f.params := by
      simp only [Inst.copy] at hg
      split at hg
      · simp at hg
      simp only [Outcome.bind_eq_ok, Outcome.ok.injEq] at hg
      obtain ⟨ps', hps, ret, hret, req, _, body, hbody, rfl⟩ := hg
      exact ⟨(Inst.stmts_ok _ _ hbody).2.1, (Inst.type_ok _ _ hret).2.1, Inst.params_count _ _ hps⟩
    obtain ⟨-, -, c, -⟩ := Inst.substitute_ok w g'.params [] ws ps hs
    refine ⟨rfl, a5, a6, ?_, hparts.1, hparts.2.1, a1⟩
    rw [← hparts.2.2]
    simpa using c

/-- A generic function in which a name refers to anything global, except for itself, cannot be
instantiated: the attempt throws (or has undefined behaviour for other reasons, see below). -/
theorem C45_global_violation (base : Nat) (f : AFn) (w : List Nat) (hf : f.instances = [])
    (hgen : f.generic = true) (hc : Inst.copyable f = true)
    (r : Lookup) (hr : r ∈ refsF f) (hg : ¬ Inside (Inst.keys f) (f.params.map AParam.k) r) :
    Inst.function base f w = .throws := by
  have hcopy : Inst.copy base f = .throws := by
    have : (∃ g, Inst.copy base f = .ok g) ∨ Inst.copy base f = .throws := by
      simp only [Inst.copy, hc, Bool.not_true, Bool.false_eq_true, if_false]
      exact Inst.bind_clean (Inst.params_clean _) fun _ => Inst.bind_clean (Inst.type_clean _) fun _ =>
        Inst.bind_clean (Inst.optional_clean Inst.expr_clean _) fun _ =>
        Inst.bind_clean (Inst.stmts_clean _) fun _ => .inl ⟨_, rfl⟩
    rcases this with ⟨g, h⟩ | h
    · exact absurd ((Inst.copy_ok h).1 r hr) hg
    · exact h
  simp [Inst.function, hf, Inst.findInstance, Outcome.assert, hgen, hcopy]

/-- A generic function with `if` without `else`, `break`, `continue`, `return` without value, a
variable or constant without type or without initializer, or any of the types `Void`, `Bool` and `Int`
has undefined behaviour when it is instantiated. -/
theorem C45_null_violation (base : Nat) (f : AFn) (w : List Nat) (hf : f.instances = [])
    (hg : f.generic = true) (hc : Inst.copyable f = false) : Inst.function base f w = .ub := by
  simp [Inst.function, hf, Inst.findInstance, Outcome.assert, hg, Inst.copy, hc]

/-- `function f(x: Uint(N), y: Uint(M)) -> Uint(N) { return x; }` after name lookup. -/
def instancesExample : AFn where
  k := 1
  cv := none
  name := ['f']
  params := [⟨2, ['x'], .uint 3 none none (.id 4 none ['N'] none true)⟩,
    ⟨5, ['y'], .uint 6 none none (.id 7 none ['M'] none true)⟩]
  ret := .uint 8 none none (.id 9 none ['N'] (some (.node 4)) false)
  requires_ := none
  bodyKey := 10
  body := [.control 11 none .return_ (some (.id 12 none ['x'] (some (.param 2)) false))]
  instances := []
  generic := true
  address := none
  level := .unanalyzed

/-- Three requests, the first and the last with the same widths. -/
example : (requestInstances (instancesExample, 100) [[8, 16], [16, 8], [8, 16]]).map Prod.fst =
    .ok [⟨[8, 16], 101⟩, ⟨[16, 8], 201⟩, ⟨[8, 16], 101⟩] := by decide +kernel

/-- A new instance with a node for the body. -/
example : (Inst.function 100 instancesExample [8, 16]).map Prod.fst = .ok ⟨[8, 16], 101⟩ := by
  decide +kernel

/-- `function f(x: Uint(N)) -> Bool { return true; }` cannot be instantiated. -/
example : Inst.function 100 { instancesExample with ret := .base 8 none .bool } [8, 16] = .ub := by
  rfl

/-- The body of `instancesExample` with `return c;`, where `c` is a global constant. -/
example : Inst.function 100 { instancesExample with
    body := [.control 11 none .return_ (some (.id 12 none ['c'] (some (.node 50)) false))] } [8, 16] =
      .throws := by
  rfl

end Bms
