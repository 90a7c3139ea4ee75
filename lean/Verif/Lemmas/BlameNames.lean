import Verif.Lemmas.AnalyzeNames
import Verif.Props.Instances

/-!
# Name lookup only finds nodes of the program
-/

namespace Bms

open Spec

/-- The lookup result is a node or parameter with a key below `N`. -/
def LowR (N : Nat) : Lookup → Prop
  | .builtin _ => True
  | .node j => j < N
  | .param j => j < N

/-- All symbols of the table are. -/
def LowTable (N : Nat) (t : SymbolTable) : Prop := ∀ m ∈ t, ∀ x ∈ m, LowR N x.2

section

variable {N : Nat}

theorem lookup_low {m : Symbols} (h : ∀ x ∈ m, LowR N x.2) {n : Name} {r : Lookup} (hr : m.lookup n = some r) : LowR N r := by
  induction m with
  | nil => cases hr
  | cons x m ih =>
    obtain ⟨y, r'⟩ := x
    rw [List.lookup] at hr
    split at hr
    · cases hr; exact h (y, r) (by simp)
    · exact ih (fun x hx => h x (by simp [hx])) hr

theorem find_low {n : Name} {r : Lookup} : (t : SymbolTable) → LowTable N t → t.find n = some r → LowR N r
  | [], _, h => by cases h
  | m :: t, hl, h => by
    rw [SymbolTable.find] at h
    cases hf : SymbolTable.find t n with
    | some r' =>
      rw [hf] at h
      cases h
      exact find_low t (fun m hm => hl m (by simp [hm])) hf
    | none =>
      rw [hf] at h
      exact lookup_low (hl m (by simp)) h

theorem emplace_low {t t' : SymbolTable} (hl : LowTable N t) {n : Name} {r : Lookup} (hr : LowR N r) {b : Bool}
    (h : t.emplace n r b = .inr t') : LowTable N t' := by
  cases t with
  | nil => cases h; exact hl
  | cons m t =>
    simp only [SymbolTable.emplace] at h
    split at h
    · cases h
    · split at h
      · cases h
      · cases h
        intro m' hm' x hx
        rcases List.mem_cons.1 hm' with rfl | hm'
        · rcases List.mem_cons.1 hx with rfl | hx
          · exact hr
          · exact hl m (by simp) x hx
        · exact hl m' (by simp [hm']) x hx

theorem open_low {t : SymbolTable} (hl : LowTable N t) : LowTable N ([] :: t) := by
  intro m hm x hx
  rcases List.mem_cons.1 hm with rfl | hm
  · cases hx
  · exact hl m hm x hx

namespace Names

mutual

theorem expr_low {t : SymbolTable} (hl : LowTable N t) : (e e' : AExpr) → expr t e = .ok e' → ∀ r ∈ refsE e', LowR N r
  | .literal .., e', h, r, hr => by
    simp only [expr] at h
    cases h
    simp [refsE] at hr
  | .id k cv name ref g, e', h, r, hr => by
    simp only [expr] at h
    cases hf : t.find name with
    | none => rw [hf] at h; cases h
    | some r' =>
      rw [hf] at h
      cases h
      simp [refsE] at hr
      subst hr
      exact find_low t hl hf
  | .conversion k cv e ty, e', h, r, hr => by
    simp only [expr, Outcome.bind_eq_ok] at h
    obtain ⟨a, ha, b, hb, h⟩ := h
    cases h
    simp only [refsE, List.mem_append] at hr
    exact hr.elim (expr_low hl e a ha r) (type_low hl ty b hb r)
  | .ite k cv x c y, e', h, r, hr => by
    simp only [expr, Outcome.bind_eq_ok] at h
    obtain ⟨a, ha, b, hb, d, hd, h⟩ := h
    cases h
    simp only [refsE, List.mem_append] at hr
    rcases hr with hr | hr | hr
    · exact expr_low hl x a ha r hr
    · exact expr_low hl c b hb r hr
    · exact expr_low hl y d hd r hr
  | .binary k cv op x y, e', h, r, hr => by
    simp only [expr, Outcome.bind_eq_ok] at h
    obtain ⟨a, ha, b, hb, h⟩ := h
    cases h
    simp only [refsE, List.mem_append] at hr
    exact hr.elim (expr_low hl x a ha r) (expr_low hl y b hb r)
  | .prefix k cv op e, e', h, r, hr => by
    simp only [expr, Outcome.bind_eq_ok] at h
    obtain ⟨a, ha, h⟩ := h
    cases h
    exact expr_low hl e a ha r (by simpa only [refsE] using hr)
  | .call k cv st name ref args, e', h, r, hr => by
    simp only [expr] at h
    cases hf : t.find name with
    | none => rw [hf] at h; cases h
    | some r' =>
      rw [hf] at h
      simp only [Outcome.bind_eq_ok] at h
      obtain ⟨a, ha, h⟩ := h
      cases h
      simp only [refsE, List.mem_append] at hr
      rcases hr with hr | hr
      · simp at hr
        subst hr
        exact find_low t hl hf
      · exact exprs_low hl args a ha r hr

theorem type_low {t : SymbolTable} (hl : LowTable N t) : (ty ty' : AType) → type t ty = .ok ty' → ∀ r ∈ refsT ty', LowR N r
  | .base .., ty', h, r, hr => by
    simp only [type] at h
    cases h
    simp [refsT] at hr
  | .uint _ _ _ w, ty', h, r, hr => by
    simp only [type, Outcome.bind_eq_ok] at h
    obtain ⟨a, ha, h⟩ := h
    cases h
    exact expr_low hl w a ha r (by simpa only [refsT] using hr)

theorem exprs_low {t : SymbolTable} (hl : LowTable N t) : (es es' : List AExpr) → exprs t es = .ok es' → ∀ r ∈ refsEs es', LowR N r
  | [], es', h, r, hr => by
    simp only [exprs] at h
    cases h
    simp [refsEs] at hr
  | e :: es, es', h, r, hr => by
    simp only [exprs, Outcome.bind_eq_ok] at h
    obtain ⟨a, ha, b, hb, h⟩ := h
    cases h
    simp only [refsEs, List.mem_append] at hr
    exact hr.elim (expr_low hl e a ha r) (exprs_low hl es b hb r)

end

theorem optional_low {α : Type} {f : α → Outcome AErr α} {g : α → List Lookup} (h : ∀ x x', f x = .ok x' → ∀ r ∈ g x', LowR N r)
    {o o' : Option α} (ho : optional f o = .ok o') : ∀ r ∈ refsO g o', LowR N r := by
  cases o with
  | none => cases ho; simp [refsO]
  | some x =>
    simp only [optional, Outcome.bind_eq_ok] at ho
    obtain ⟨a, ha, ho⟩ := ho
    cases ho
    simpa only [refsO] using h x a ha

mutual

theorem stmt_low : (s s' : AStmt) → {t t' : SymbolTable} → LowTable N t → (∀ k ∈ Inst.keysS s, k < N) →
    stmt t s = .ok (t', s') → LowTable N t' ∧ ∀ r ∈ refsS s', LowR N r
  | .const_ k cv name ty init, s', t, t', hl, hk, h => by
    simp only [stmt] at h
    split at h
    · cases h
    · next t1 he =>
      simp only [Outcome.bind_eq_ok] at h
      obtain ⟨a, ha, b, hb, h⟩ := h
      cases h
      have hl1 := emplace_low hl (r := .node k) (hk k (by simp [Inst.keysS])) he
      refine ⟨hl1, fun r hr => ?_⟩
      simp only [refsS, List.mem_append] at hr
      exact hr.elim (optional_low (type_low hl1) ha r) (expr_low hl1 _ _ hb r)
  | .let_ k cv name ty init, s', t, t', hl, hk, h => by
    simp only [stmt] at h
    split at h
    · cases h
    · next t1 he =>
      simp only [Outcome.bind_eq_ok] at h
      obtain ⟨a, ha, b, hb, h⟩ := h
      cases h
      have hl1 := emplace_low hl (r := .node k) (hk k (by simp [Inst.keysS])) he
      refine ⟨hl1, fun r hr => ?_⟩
      simp only [refsS, List.mem_append] at hr
      exact hr.elim (optional_low (type_low hl1) ha r) (optional_low (expr_low hl1) hb r)
  | .staticAssert k cv e, s', t, t', hl, hk, h => by
    simp only [stmt, Outcome.bind_eq_ok] at h
    obtain ⟨a, ha, h⟩ := h
    cases h
    exact ⟨hl, fun r hr => expr_low hl e a ha r (by simpa only [refsS] using hr)⟩
  | .ifThen k cv c th, s', t, t', hl, hk, h => by
    simp only [stmt, Outcome.bind_eq_ok] at h
    obtain ⟨a, ha, ⟨t1, b⟩, hb, h⟩ := h
    cases h
    simp only [Inst.keysS, List.mem_cons, List.mem_append] at hk
    obtain ⟨h1, h2⟩ := stmt_low th b hl (fun k h => hk k (.inr (.inr h))) hb
    refine ⟨h1, fun r hr => ?_⟩
    simp only [refsS, List.mem_append] at hr
    exact hr.elim (expr_low hl c a ha r) (h2 r)
  | .ifElse k cv c th el, s', t, t', hl, hk, h => by
    simp only [stmt, Outcome.bind_eq_ok] at h
    obtain ⟨a, ha, ⟨t1, b⟩, hb, ⟨t2, d⟩, hd, h⟩ := h
    cases h
    simp only [Inst.keysS, List.mem_cons, List.mem_append] at hk
    obtain ⟨h1, h2⟩ := stmt_low th b hl (fun k h => hk k (.inr (.inl (.inr h)))) hb
    obtain ⟨h3, h4⟩ := stmt_low el d h1 (fun k h => hk k (.inr (.inr h))) hd
    refine ⟨h3, fun r hr => ?_⟩
    simp only [refsS, List.mem_append] at hr
    rcases hr with hr | hr | hr
    · exact expr_low hl c a ha r hr
    · exact h2 r hr
    · exact h4 r hr
  | .while_ k cv c b0, s', t, t', hl, hk, h => by
    simp only [stmt, Outcome.bind_eq_ok] at h
    obtain ⟨a, ha, ⟨t1, b⟩, hb, h⟩ := h
    cases h
    simp only [Inst.keysS, List.mem_cons, List.mem_append] at hk
    obtain ⟨h1, h2⟩ := stmt_low b0 b hl (fun k h => hk k (.inr (.inr h))) hb
    refine ⟨h1, fun r hr => ?_⟩
    simp only [refsS, List.mem_append] at hr
    exact hr.elim (expr_low hl c a ha r) (h2 r)
  | .control k cv c e, s', t, t', hl, hk, h => by
    simp only [stmt, Outcome.bind_eq_ok] at h
    obtain ⟨a, ha, h⟩ := h
    cases h
    exact ⟨hl, fun r hr => optional_low (expr_low hl) ha r (by simpa only [refsS] using hr)⟩
  | .assign k cv name ref e, s', t, t', hl, hk, h => by
    simp only [stmt] at h
    cases hf : t.find name with
    | none => rw [hf] at h; cases h
    | some r' =>
      rw [hf] at h
      simp only [Outcome.bind_eq_ok] at h
      obtain ⟨a, ha, h⟩ := h
      cases h
      refine ⟨hl, fun r hr => ?_⟩
      simp only [refsS, List.mem_append] at hr
      rcases hr with hr | hr
      · simp at hr
        subst hr
        exact find_low t hl hf
      · exact expr_low hl e a ha r hr
  | .block k cv ss, s', t, t', hl, hk, h => by
    simp only [stmt, Outcome.bind_eq_ok] at h
    obtain ⟨⟨t1, b⟩, hb, h⟩ := h
    cases h
    simp only [Inst.keysS, List.mem_cons] at hk
    exact ⟨hl, fun r hr => (stmts_low ss b (open_low hl) (fun k h => hk k (.inr h)) hb).2 r (by simpa only [refsS] using hr)⟩
  | .call e, s', t, t', hl, hk, h => by
    simp only [stmt, Outcome.bind_eq_ok] at h
    obtain ⟨a, ha, h⟩ := h
    cases h
    exact ⟨hl, fun r hr => expr_low hl e a ha r (by simpa only [refsS] using hr)⟩

theorem stmts_low : (ss ss' : List AStmt) → {t t' : SymbolTable} → LowTable N t → (∀ k ∈ Inst.keysSs ss, k < N) →
    stmts t ss = .ok (t', ss') → LowTable N t' ∧ ∀ r ∈ refsSs ss', LowR N r
  | [], ss', t, t', hl, hk, h => by
    simp only [stmts] at h
    cases h
    exact ⟨hl, fun r hr => by simp [refsSs] at hr⟩
  | s :: ss, ss', t, t', hl, hk, h => by
    simp only [stmts, Outcome.bind_eq_ok] at h
    obtain ⟨⟨t1, a⟩, ha, ⟨t2, b⟩, hb, h⟩ := h
    cases h
    simp only [Inst.keysSs, List.mem_append] at hk
    obtain ⟨h1, h2⟩ := stmt_low s a hl (fun k h => hk k (.inl h)) ha
    obtain ⟨h3, h4⟩ := stmts_low ss b h1 (fun k h => hk k (.inr h)) hb
    refine ⟨h3, fun r hr => ?_⟩
    simp only [refsSs, List.mem_append] at hr
    exact hr.elim (h2 r) (h4 r)

end

theorem param_low {t t' : SymbolTable} {p p' : AParam} {g : Bool} (hl : LowTable N t) (hp : p.k < N)
    (hk : ∀ k ∈ Inst.keysT p.type, k < N) (hr : refsT p.type = []) (h : param t p = .ok (t', p', g)) :
    LowTable N t' ∧ ∀ r ∈ refsT p'.type, LowR N r := by
  unfold param at h
  split at h
  · cases h
  · next t1 he =>
    have hl1 := emplace_low hl (r := .param p.k) hp he
    cases hty : p.type with
    | base k cv b =>
      rw [hty] at h
      cases h
      exact ⟨hl1, fun r hr => by rw [hty] at hr; simp [refsT] at hr⟩
    | uint k cv c w =>
      rw [hty] at h hk hr
      simp only at h
      cases hw : expr t1 w with
      | ok w' =>
        rw [hw] at h
        cases h
        exact ⟨hl1, fun r hr => expr_low hl1 w w' hw r (by simpa only [refsT] using hr)⟩
      | throws => rw [hw] at h; cases h
      | ub => rw [hw] at h; cases h
      | err e =>
        rw [hw] at h
        simp only at h
        split at h
        · cases h
        · cases w with
          | id kw cvw name ref g =>
            simp only at h
            have hkw : LowR N (.node kw) := hk kw (by simp [Inst.keysT, Inst.keysE])
            simp [refsT, refsE] at hr
            subst hr
            split at h
            · cases h; exact ⟨hl1, fun r hr => by simp [refsT, refsE] at hr⟩
            · next t2 he2 => cases h; exact ⟨emplace_low hl1 hkw he2, fun r hr => by simp [refsT, refsE] at hr⟩
          | _ => cases h

theorem params_low : (ps ps' : List AParam) → {t t' : SymbolTable} → {g : Bool} → LowTable N t → (∀ p ∈ ps, p.k < N) →
    (∀ p ∈ ps, ∀ k ∈ Inst.keysT p.type, k < N) → (∀ p ∈ ps, refsT p.type = []) → params t ps = .ok (t', ps', g) →
    LowTable N t' ∧ ∀ p ∈ ps', ∀ r ∈ refsT p.type, LowR N r
  | [], ps', t, t', g, hl, _, _, _, h => by
    simp only [params] at h
    cases h
    exact ⟨hl, by simp⟩
  | p :: ps, ps', t, t', g, hl, h1, h2, h3, h => by
    simp only [params, Outcome.bind_eq_ok] at h
    obtain ⟨⟨t1, a, g1⟩, ha, ⟨t2, b, g2⟩, hb, h⟩ := h
    cases h
    obtain ⟨h4, h5⟩ := param_low hl (h1 p (by simp)) (h2 p (by simp)) (h3 p (by simp)) ha
    obtain ⟨h6, h7⟩ := params_low ps b h4 (fun p h => h1 p (by simp [h])) (fun p h => h2 p (by simp [h]))
      (fun p h => h3 p (by simp [h])) hb
    refine ⟨h6, fun p' hp' => ?_⟩
    rcases List.mem_cons.1 hp' with rfl | hp'
    · exact h5
    · exact h7 p' hp'

/-- Everything that a declaration refers to is low. -/
def LowD (N : Nat) : ADecl → Prop
  | .const_ _ _ _ ty init => (∀ r ∈ refsO refsT ty, LowR N r) ∧ ∀ r ∈ refsE init, LowR N r
  | .staticAssert _ _ e => ∀ r ∈ refsE e, LowR N r
  | .function f => (∀ p ∈ f.params, ∀ r ∈ refsT p.type, LowR N r) ∧ (∀ r ∈ refsT f.ret, LowR N r) ∧
      (∀ r ∈ refsO refsE f.requires_, LowR N r) ∧ ∀ r ∈ refsSs f.body, LowR N r

theorem decl_low {t : SymbolTable} (hl : LowTable N t) {d d' : ADecl} (hk : ∀ k ∈ nodeKeys d, k < N)
    (hr : ∀ f, d = .function f → ∀ p ∈ f.params, refsT p.type = []) (h : decl t d = .ok d') : LowD N d' := by
  cases d with
  | const_ k cv name ty init =>
    simp only [decl, Outcome.bind_eq_ok] at h
    obtain ⟨_, -, a, ha, b, hb, h⟩ := h
    cases h
    exact ⟨optional_low (type_low hl) ha, expr_low hl _ _ hb⟩
  | staticAssert k cv e =>
    simp only [decl, Outcome.bind_eq_ok] at h
    obtain ⟨a, ha, h⟩ := h
    cases h
    exact expr_low hl _ _ ha
  | function f =>
    simp only [decl, function, Outcome.bind_eq_ok] at h
    obtain ⟨_, -, f', ⟨⟨t1, ps, g⟩, h1, a, ha, b, hb, ⟨t2, c⟩, hc, hf⟩, h⟩ := h
    cases h
    cases hf
    simp only [nodeKeys, Inst.keys, List.mem_append, List.mem_cons, List.mem_flatMap, List.mem_map] at hk
    obtain ⟨h2, h3⟩ := params_low f.params ps (open_low hl) (fun p hp => hk p.k (.inr ⟨p, hp, rfl⟩))
      (fun p hp k h => hk k (.inl (.inr (.inl (.inl (.inl ⟨p, hp, h⟩)))))) (hr f rfl) h1
    refine ⟨h3, type_low h2 _ _ ha, optional_low (expr_low h2) hb, ?_⟩
    exact (stmts_low f.body c (open_low h2) (fun k h => hk k (.inl (.inr (.inr (.inr h))))) hc).2

theorem register_low : (ds : List ADecl) → {t t' : SymbolTable} → LowTable N t → (∀ d ∈ ds, ∀ k ∈ nodeKeys d, k < N) →
    register t ds = .ok t' → LowTable N t'
  | [], t, t', hl, _, h => by
    simp only [register] at h
    cases h
    exact hl
  | .const_ k cv name ty init :: ds, t, t', hl, hk, h => by
    simp only [register] at h
    split at h
    · cases h
    · next t1 he =>
      exact register_low ds (emplace_low hl (r := .node k) (hk _ (List.mem_cons_self ..) k (by simp [nodeKeys])) he)
        (fun d hd => hk d (by simp [hd])) h
  | .function f :: ds, t, t', hl, hk, h => by
    simp only [register] at h
    split at h
    · cases h
    · next t1 he =>
      exact register_low ds (emplace_low hl (r := .node f.k) (hk _ (List.mem_cons_self ..) f.k (by simp [nodeKeys, Inst.keys])) he)
        (fun d hd => hk d (by simp [hd])) h
  | .staticAssert .. :: ds, t, t', hl, hk, h => by
    simp only [register] at h
    exact register_low ds hl (fun d hd => hk d (by simp [hd])) h

theorem decls_low {t : SymbolTable} (hl : LowTable N t) : (ds ds' : List ADecl) → (∀ d ∈ ds, ∀ k ∈ nodeKeys d, k < N) →
    (∀ f, .function f ∈ ds → ∀ p ∈ f.params, refsT p.type = []) → decls t ds = .ok ds' → ∀ d ∈ ds', LowD N d
  | [], ds', _, _, h => by
    simp only [decls] at h
    cases h
    simp
  | d :: ds, ds', hk, hr, h => by
    simp only [decls, Outcome.bind_eq_ok] at h
    obtain ⟨a, ha, b, hb, h⟩ := h
    cases h
    intro d' hd'
    rcases List.mem_cons.1 hd' with rfl | hd'
    · exact decl_low hl (hk d (by simp)) (fun f hf => hr f (by simp [hf])) ha
    · exact decls_low hl ds b (fun d hd => hk d (by simp [hd])) (fun f hf => hr f (by simp [hf])) hb d' hd'

/-- What name lookup finds are nodes of the program. -/
theorem program_low {ds ds' : List ADecl} (hk : ∀ d ∈ ds, ∀ k ∈ nodeKeys d, k < N)
    (hr : ∀ f, .function f ∈ ds → ∀ p ∈ f.params, refsT p.type = []) (h : program ds = .ok ds') : ∀ d ∈ ds', LowD N d := by
  simp only [program, Outcome.bind_eq_ok] at h
  obtain ⟨t, ht, h⟩ := h
  refine decls_low (register_low ds ?_ hk ht) ds ds' hk hr h
  intro m hm x hx
  simp only [List.mem_cons, List.not_mem_nil, or_false] at hm
  rcases hm with rfl | rfl
  · cases hx
  · simp [builtinSymbols] at hx
    subst hx
    trivial

end Names

end

end Bms
