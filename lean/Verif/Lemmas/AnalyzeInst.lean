import Verif.Lemmas.AnalyzeInv

/-!
# Declarations and instances in the state of analysis
-/

namespace Bms

open Spec

/-! ## One declaration -/

theorem mem_keys {ds : List (Key × DeclKind)} {d : Key × DeclKind} (h : d ∈ ds) :
    d.1 ∈ ds.map Prod.fst := List.mem_map_of_mem h

theorem decl_unique {ds : List (Key × DeclKind)} (hn : (ds.map Prod.fst).Nodup) {d e : Key × DeclKind}
    (hd : d ∈ ds) (he : e ∈ ds) (h : d.1 = e.1) : d = e := by
  induction ds with
  | nil => cases hd
  | cons x xs ih =>
    simp only [List.map_cons, List.nodup_cons] at hn
    rcases List.mem_cons.1 hd with hd' | hd' <;> rcases List.mem_cons.1 he with he' | he'
    · exact hd'.trans he'.symm
    · subst hd'; exact absurd (h ▸ mem_keys he') hn.1
    · subst he'; exact absurd (h ▸ mem_keys hd') hn.1
    · exact ih hn.2 hd' he'

/-- A declaration in the function that is being analyzed gets its value. -/
theorem setDecl_ok {N : Nat} {s : ASt} (h : Inv N s) {k : Key} {f : AFn} (hon : k ∈ s.stack)
    (hf : s.fns k = some f) (hl : f.level.rank < 2) {x : Key} {kd : DeclKind} {v : Value}
    (hx : (x, kd) ∈ declsSs f.body) (hu : Unset s x) (hok : DeclOk ⟨kd, some v⟩) :
    Inv N (s.setDecl x ⟨kd, some v⟩) ∧ Ext [x] s (s.setDecl x ⟨kd, some v⟩) := by
  have hfi := h.fn k f hf
  have hgen : f.generic = false := by
    obtain ⟨g, h1, h2⟩ := h.stackFns k hon
    rw [hf] at h1
    cases h1
    exact h2
  have hxo : x ∈ owned f := List.mem_append_right _ (mem_keys hx)
  have hnd := hfi.ownedNodup
  rw [owned, List.nodup_append] at hnd
  have hd : ∀ y, y ≠ x → (s.setDecl x ⟨kd, some v⟩).decl y = s.decl y := fun y hy => by
    simp [ASt.setDecl, hy]
  have hdx : (s.setDecl x ⟨kd, some v⟩).decl x = some ⟨kd, some v⟩ := by simp [ASt.setDecl]
  obtain ⟨cv0, hold⟩ := hfi.bodyDecl _ hx
  have hsome : ∀ y kd' w, s.decl y = some ⟨kd', some w⟩ →
      (s.setDecl x ⟨kd, some v⟩).decl y = some ⟨kd', some w⟩ := by
    intro y kd' w hy
    rw [hd y, hy]
    rintro rfl
    exact hu _ _ hy
  have hkind : ∀ y d, s.decl y = some d →
      ∃ d', (s.setDecl x ⟨kd, some v⟩).decl y = some d' ∧ d'.kind = d.kind := by
    intro y d hy
    by_cases e : y = x
    · subst e
      rw [hold] at hy
      cases hy
      exact ⟨_, hdx, rfl⟩
    · exact ⟨d, (hd y e).trans hy, rfl⟩
  constructor
  · refine (h.update (s' := s.setDecl x ⟨kd, some v⟩) hf hf (.refl f) (fun _ _ => rfl)
      (fun y hy => hd y fun e => hy (e ▸ hxo)) rfl hsome (fun y _ => hkind y) (fun y hy hn => ?_)
      (fun y hy d hyd => ?_) (fun _ _ => Iff.rfl) (fun _ => hgen) h.code
      ⟨[], by simp [ASt.setDecl]⟩ h.loaded (fun hg hp => ?_)).1
    · by_cases e : y = x
      · subst e; rw [hold] at hn; cases hn
      · exact (hd y e).trans hn
    · by_cases e : y = x
      · subst e; rw [hdx] at hyd; cases hyd; exact hok
      · rw [hd y e] at hyd; exact h.declOk y d hyd
    · have p := hfi.plain hgen
      exact {
        key := hfi.key
        ownedLt := hfi.ownedLt
        ownedNodup := hfi.ownedNodup
        paramDecl := fun q hq => by
          rw [hd q.k]
          · exact hfi.paramDecl q hq
          · exact hnd.2.2 q.k (List.mem_map_of_mem hq) x (mem_keys hx)
        bodyDecl := fun d hdm => by
          by_cases e : d.1 = x
          · have := decl_unique hnd.2.1 hdm hx e
            subst this
            exact ⟨_, hdx⟩
          · rw [hd d.1 e]; exact hfi.bodyDecl d hdm
        plain := fun _ => { p with
          raw := fun _ hn => absurd hon hn
          typed := fun h2 => absurd h2 (Nat.not_le.2 hl)
          typedConst := fun h2 => by rw [h2] at hl; simp [Level.rank] at hl
          paramRefs := fun hl i hi => hp i (p.paramRefs hl i hi)
          valsParams := fun q hq hs => (p.valsParams q hq hs).grow hg
          valsRet := fun hs => (p.valsRet hs).grow hg
          valsReqs := fun e he hs => (p.valsReqs e he hs).grow hg
          valsBody := fun hl => (p.valsBody hl).grow hg }
        gen := fun hg => by rw [hgen] at hg; cases hg }
  · exact {
      stack := rfl
      next := Nat.le_refl _
      declSome := hsome
      declKind := hkind
      fns := fun j g hj => ⟨g, hj, .refl g⟩
      newFns := fun j g hj hn => by
        rw [show (s.setDecl x ⟨kd, some v⟩).fns = s.fns from rfl, hn] at hj; cases hj
      onStack := fun _ _ => rfl
      onStackDecl := fun _ _ _ _ y _ hn => hd y fun e => hn (by simp [e])
      unowned := fun y _ hy => hd y fun e => hy k f hf (e ▸ hxo)
      code := ⟨[], by simp [ASt.setDecl]⟩ }

/-! ## Many declarations -/

/-- Declare all of these. -/
def insertAll : List (Key × Decl) → (Key → Option Decl) → Key → Option Decl
  | [], d => d
  | (k, v) :: r, d => insertAll r fun j => if j = k then some v else d j

theorem insertAll_append (a b : List (Key × Decl)) : ∀ d,
    insertAll (a ++ b) d = insertAll b (insertAll a d) := by
  induction a with
  | nil => intro d; rfl
  | cons x a ih => intro d; exact ih _

theorem insertAll_not (l : List (Key × Decl)) : ∀ d x, x ∉ l.map Prod.fst →
    insertAll l d x = d x := by
  induction l with
  | nil => intro d x _; rfl
  | cons a l ih =>
    intro d x hx
    simp only [List.map_cons, List.mem_cons, not_or] at hx
    rw [insertAll, ih _ _ hx.2, if_neg hx.1]

theorem insertAll_mem (l : List (Key × Decl)) : ∀ d, (l.map Prod.fst).Nodup → ∀ x ∈ l,
    insertAll l d x.1 = some x.2 := by
  induction l with
  | nil => intro d _ x hx; cases hx
  | cons a l ih =>
    intro d hn x hx
    simp only [List.map_cons, List.nodup_cons] at hn
    rcases List.mem_cons.1 hx with rfl | hx
    · rw [insertAll, insertAll_not _ _ _ hn.1, if_pos rfl]
    · exact ih _ hn.2 x hx

theorem insertAll_cases (l : List (Key × Decl)) : ∀ d x v, insertAll l d x = some v →
    (x, v) ∈ l ∨ x ∉ l.map Prod.fst ∧ d x = some v := by
  induction l with
  | nil => intro d x v h; exact .inr ⟨by simp, h⟩
  | cons a l ih =>
    intro d x v h
    rcases ih _ x v h with h | ⟨h1, h2⟩
    · exact .inl (List.mem_cons_of_mem _ h)
    · split at h2
      · rename_i e
        cases h2
        exact .inl (by simp [e])
      · rename_i e
        exact .inr ⟨by simp [e, h1], h2⟩

/-- The declarations of a parameter. -/
def declsP (p : AParam) : List (Key × Decl) :=
  (p.k, ⟨.param, p.type.cv⟩) :: match p.type with
    | .uint _ _ _ (.id ki cv _ _ true) => [(ki, ⟨.width, cv⟩)]
    | _ => []

theorem declareParams_eq (ps : List AParam) : ∀ d,
    Ana.declareParams ps d = insertAll (ps.flatMap declsP) d := by
  induction ps with
  | nil => intro d; rfl
  | cons p ps ih =>
    intro d
    rw [List.flatMap_cons, insertAll_append, ← ih]
    simp only [Ana.declareParams, List.foldl_cons]
    congr 1
    simp only [declsP]
    split
    · rename_i h
      simp only [insertAll, h]
    · rename_i hne
      simp only [insertAll]

mutual

theorem declareStmt_eq : (t : AStmt) → RawS t → ∀ d,
    Ana.declareStmt t d = insertAll ((declsS t).map fun x => (x.1, ⟨x.2, none⟩)) d
  | .const_ .., h, d => by
    simp only [RawS] at h
    obtain ⟨rfl, _⟩ := h
    rfl
  | .let_ .., h, d => by
    simp only [RawS] at h
    obtain ⟨rfl, _⟩ := h
    rfl
  | .staticAssert .., _, d => by simp [Ana.declareStmt, declsS, insertAll]
  | .ifThen _ _ _ t, h, d => by
    simp only [RawS] at h
    simp only [Ana.declareStmt, declsS]
    exact declareStmt_eq t h.2.2 d
  | .ifElse _ _ _ t e, h, d => by
    simp only [RawS] at h
    simp only [Ana.declareStmt, declsS, List.map_append, insertAll_append]
    rw [declareStmt_eq t h.2.2.1 d, declareStmt_eq e h.2.2.2]
  | .while_ _ _ _ b, h, d => by
    simp only [RawS] at h
    simp only [Ana.declareStmt, declsS]
    exact declareStmt_eq b h.2.2 d
  | .control .., _, d => by simp [Ana.declareStmt, declsS, insertAll]
  | .assign .., _, d => by simp [Ana.declareStmt, declsS, insertAll]
  | .block _ _ ss, h, d => by
    simp only [RawS] at h
    simp only [Ana.declareStmt, declsS]
    exact declareStmts_eq ss h.2 d
  | .call .., _, d => by simp [Ana.declareStmt, declsS, insertAll]

theorem declareStmts_eq : (ss : List AStmt) → RawSs ss → ∀ d,
    Ana.declareStmts ss d = insertAll ((declsSs ss).map fun x => (x.1, ⟨x.2, none⟩)) d
  | [], _, d => by simp [Ana.declareStmts, declsSs, insertAll]
  | t :: ss, h, d => by
    simp only [RawSs] at h
    simp only [Ana.declareStmts, declsSs, List.map_append, insertAll_append]
    rw [declareStmt_eq t h.1 d, declareStmts_eq ss h.2]

end

/-- All declarations of a function before its analysis. -/
def declsF (f : AFn) : List (Key × Decl) :=
  f.params.flatMap declsP ++ (declsSs f.body).map fun x => (x.1, ⟨x.2, none⟩)

theorem addFunction_decl {f : AFn} (h : RawSs f.body) (s : ASt) :
    (Ana.addFunction f s).decl = insertAll (declsF f) s.decl := by
  simp only [Ana.addFunction, declsF, insertAll_append, declareParams_eq, declareStmts_eq _ h]

/-! ## Keys -/

/-- The keys of the widths that a parameter declares. -/
def widthKeys (p : AParam) : List Key :=
  match p.type with
  | .uint _ _ _ (.id ki _ _ _ true) => [ki]
  | _ => []

theorem declsP_keys (p : AParam) : (declsP p).map Prod.fst = p.k :: widthKeys p := by
  unfold declsP widthKeys
  split <;> simp

theorem widthKeys_sub (p : AParam) : (widthKeys p).Sublist (Inst.keysT p.type) := by
  unfold widthKeys
  split
  · rename_i h
    rw [h]
    simp [Inst.keysT, Inst.keysE]
  · exact List.nil_sublist _

mutual

theorem declsS_sub : (t : AStmt) → ((declsS t).map Prod.fst).Sublist (Inst.keysS t)
  | .const_ .. => by simp [declsS, Inst.keysS]
  | .let_ .. => by simp [declsS, Inst.keysS]
  | .staticAssert .. => by simp [declsS]
  | .ifThen _ _ _ t => by
    simp only [declsS, Inst.keysS]
    exact ((declsS_sub t).trans (List.sublist_append_right _ _)).cons _
  | .ifElse _ _ _ t e => by
    simp only [declsS, Inst.keysS, List.map_append]
    exact (((declsS_sub t).trans (List.sublist_append_right _ _)).append (declsS_sub e)).cons _
  | .while_ _ _ _ b => by
    simp only [declsS, Inst.keysS]
    exact ((declsS_sub b).trans (List.sublist_append_right _ _)).cons _
  | .control .. => by simp [declsS]
  | .assign .. => by simp [declsS]
  | .block _ _ ss => by
    simp only [declsS, Inst.keysS]
    exact (declsSs_sub ss).cons _
  | .call .. => by simp [declsS]

theorem declsSs_sub : (ss : List AStmt) → ((declsSs ss).map Prod.fst).Sublist (Inst.keysSs ss)
  | [] => by simp [declsSs]
  | t :: ss => by
    simp only [declsSs, Inst.keysSs, List.map_append]
    exact (declsS_sub t).append (declsSs_sub ss)

end

theorem flatMap_declsP_perm (ps : List AParam) :
    ((ps.flatMap declsP).map Prod.fst).Perm (ps.map AParam.k ++ ps.flatMap widthKeys) := by
  induction ps with
  | nil => simp
  | cons p ps ih =>
    simp only [List.flatMap_cons, List.map_append, declsP_keys, List.map_cons, List.cons_append]
    refine List.Perm.cons _ ?_
    refine (ih.append_left _).trans ?_
    rw [← List.append_assoc, ← List.append_assoc]
    exact List.perm_append_comm.append_right _

theorem flatMap_sub {α : Type} {f g : α → List Key} (h : ∀ x, (f x).Sublist (g x)) (l : List α) :
    (l.flatMap f).Sublist (l.flatMap g) := by
  induction l with
  | nil => simp
  | cons a l ih => simp only [List.flatMap_cons]; exact (h a).append ih

/-- The declarations of a function are nodes and parameters of it. -/
theorem declsF_keys (f : AFn) : ∃ l, l.Sublist (Inst.keys f) ∧
    ((declsF f).map Prod.fst).Perm (l ++ f.params.map AParam.k) := by
  refine ⟨f.params.flatMap widthKeys ++ (declsSs f.body).map Prod.fst, ?_, ?_⟩
  · simp only [Inst.keys]
    refine List.Sublist.cons _ (List.Sublist.append ?_ ((declsSs_sub f.body).cons _))
    rw [List.append_assoc]
    exact (flatMap_sub widthKeys_sub _).trans (List.sublist_append_left _ _)
  · simp only [declsF, List.map_append, List.map_map]
    refine ((flatMap_declsP_perm f.params).append_right _).trans ?_
    have : (Prod.fst ∘ fun x : Key × DeclKind => (x.1, (⟨x.2, none⟩ : Decl))) = Prod.fst := rfl
    rw [this, List.append_assoc]
    exact List.perm_append_comm

theorem declsF_nodup {f : AFn} (h : (Inst.keys f ++ f.params.map AParam.k).Nodup) :
    ((declsF f).map Prod.fst).Nodup := by
  obtain ⟨l, h1, h2⟩ := declsF_keys f
  exact h2.nodup_iff.2 ((h1.append_right _).nodup h)

theorem declsF_mem {f : AFn} {x : Key} (h : x ∈ (declsF f).map Prod.fst) :
    x ∈ Inst.keys f ++ f.params.map AParam.k := by
  obtain ⟨l, h1, h2⟩ := declsF_keys f
  exact (h1.append_right _).subset (h2.mem_iff.1 h)

theorem owned_perm (f : AFn) : (owned f).Sublist ((f.params.map AParam.k ++ f.params.flatMap widthKeys)
    ++ (declsSs f.body).map Prod.fst) := by
  rw [owned]
  exact (List.sublist_append_left _ _).append (List.Sublist.refl _)

theorem declsF_perm (f : AFn) : ((declsF f).map Prod.fst).Perm
    ((f.params.map AParam.k ++ f.params.flatMap widthKeys) ++ (declsSs f.body).map Prod.fst) := by
  simp only [declsF, List.map_append, List.map_map]
  exact (flatMap_declsP_perm f.params).append_right _

theorem owned_nodup {f : AFn} (h : ((declsF f).map Prod.fst).Nodup) : (owned f).Nodup :=
  (owned_perm f).nodup ((declsF_perm f).nodup_iff.1 h)

theorem owned_mem {f : AFn} {x : Key} (h : x ∈ owned f) : x ∈ (declsF f).map Prod.fst :=
  (declsF_perm f).mem_iff.2 ((owned_perm f).subset h)

theorem declsF_param {f : AFn} {p : AParam} (h : p ∈ f.params) :
    (p.k, ⟨.param, p.type.cv⟩) ∈ declsF f :=
  List.mem_append_left _ (List.mem_flatMap.2 ⟨p, h, by simp [declsP]⟩)

theorem declsF_body {f : AFn} {d : Key × DeclKind} (h : d ∈ declsSs f.body) :
    (d.1, ⟨d.2, none⟩) ∈ declsF f := List.mem_append_right _ (List.mem_map.2 ⟨d, h, rfl⟩)

/-! ## Copies -/

namespace Inst

variable {m : Remap}

mutual

theorem expr_raw : (e e' : AExpr) → expr m e = .ok e' → (RawE e → RawE e') ∧ (CallFree e → CallFree e')
  | .literal .., e', h => by
    simp only [expr, Outcome.ok.injEq] at h
    subst h
    simp [RawE, CallFree]
  | .id .., e', h => by
    simp only [expr, Outcome.bind_eq_ok, Outcome.ok.injEq] at h
    obtain ⟨r, _, rfl⟩ := h
    simp [RawE, CallFree]
  | .conversion _ _ e ty, e', h => by
    simp only [expr, Outcome.bind_eq_ok, Outcome.ok.injEq] at h
    obtain ⟨a, ha, b, hb, rfl⟩ := h
    have a1 := expr_raw e a ha
    have b1 := type_raw ty b hb
    simp only [RawE, CallFree]
    exact ⟨fun h => ⟨h.1, a1.1 h.2.1, b1.1 h.2.2⟩, fun h => ⟨a1.2 h.1, b1.2 h.2⟩⟩
  | .ite _ _ l c r, e', h => by
    simp only [expr, Outcome.bind_eq_ok, Outcome.ok.injEq] at h
    obtain ⟨a, ha, b, hb, d, hd, rfl⟩ := h
    have a1 := expr_raw l a ha
    have b1 := expr_raw c b hb
    have d1 := expr_raw r d hd
    simp only [RawE, CallFree]
    exact ⟨fun h => ⟨h.1, a1.1 h.2.1, b1.1 h.2.2.1, d1.1 h.2.2.2⟩,
      fun h => ⟨a1.2 h.1, b1.2 h.2.1, d1.2 h.2.2⟩⟩
  | .binary _ _ _ l r, e', h => by
    simp only [expr, Outcome.bind_eq_ok, Outcome.ok.injEq] at h
    obtain ⟨a, ha, b, hb, rfl⟩ := h
    have a1 := expr_raw l a ha
    have b1 := expr_raw r b hb
    simp only [RawE, CallFree]
    exact ⟨fun h => ⟨h.1, a1.1 h.2.1, b1.1 h.2.2⟩, fun h => ⟨a1.2 h.1, b1.2 h.2⟩⟩
  | .prefix _ _ _ e, e', h => by
    simp only [expr, Outcome.bind_eq_ok, Outcome.ok.injEq] at h
    obtain ⟨a, ha, rfl⟩ := h
    have a1 := expr_raw e a ha
    simp only [RawE, CallFree]
    exact ⟨fun h => ⟨h.1, a1.1 h.2⟩, a1.2⟩
  | .call _ _ _ _ _ args, e', h => by
    simp only [expr, Outcome.bind_eq_ok, Outcome.ok.injEq] at h
    obtain ⟨r, _, a, ha, rfl⟩ := h
    have a1 := exprs_raw args a ha
    simp only [RawE, CallFree]
    exact ⟨fun h => ⟨h.1, h.2.1, a1 h.2.2⟩, fun h => h.elim⟩

theorem type_raw : (ty ty' : AType) → type m ty = .ok ty' →
    (RawT ty → RawT ty') ∧ (CallFreeT ty → CallFreeT ty')
  | .base .., ty', h => by
    simp only [type, Outcome.ok.injEq] at h
    subst h
    simp [RawT, CallFreeT]
  | .uint _ _ _ w, ty', h => by
    simp only [type, Outcome.bind_eq_ok, Outcome.ok.injEq] at h
    obtain ⟨a, ha, rfl⟩ := h
    have a1 := expr_raw w a ha
    simp only [RawT, CallFreeT]
    exact ⟨fun h => ⟨h.1, h.2.1, a1.1 h.2.2⟩, a1.2⟩

theorem exprs_raw : (es es' : List AExpr) → exprs m es = .ok es' → RawEs es → RawEs es'
  | [], es', h, _ => by
    simp only [exprs, Outcome.ok.injEq] at h
    subst h
    trivial
  | e :: es, es', h, hr => by
    simp only [exprs, Outcome.bind_eq_ok, Outcome.ok.injEq] at h
    obtain ⟨a, ha, b, hb, rfl⟩ := h
    simp only [RawEs] at hr ⊢
    exact ⟨(expr_raw e a ha).1 hr.1, exprs_raw es b hb hr.2⟩

end

theorem optional_all {α : Type} {f : α → Outcome AErr α} {P : α → Prop}
    (hf : ∀ x x', f x = .ok x' → P x → P x') {o o' : Option α} (h : Names.optional f o = .ok o')
    (ho : ∀ x ∈ o, P x) : ∀ x ∈ o', P x := by
  cases o with
  | none =>
    simp only [Names.optional, Outcome.ok.injEq] at h
    subst h
    exact ho
  | some x =>
    simp only [Names.optional, Outcome.bind_eq_ok, Outcome.ok.injEq] at h
    obtain ⟨a, ha, rfl⟩ := h
    intro y hy
    simp only [Option.mem_some_iff] at hy
    subst hy
    exact hf x a ha (ho x rfl)

theorem optional_none {α : Type} {f : α → Outcome AErr α} {o o' : Option α}
    (h : Names.optional f o = .ok o') : o' = none ↔ o = none := by
  cases o with
  | none =>
    simp only [Names.optional, Outcome.ok.injEq] at h
    simp [← h]
  | some x =>
    simp only [Names.optional, Outcome.bind_eq_ok, Outcome.ok.injEq] at h
    obtain ⟨a, ha, rfl⟩ := h
    simp

mutual

theorem stmt_raw : (t t' : AStmt) → stmt m t = .ok t' → RawS t →
    RawS t' ∧ declsS t' = (declsS t).map fun x => (x.1 + m.base, x.2)
  | .const_ _ _ _ ty init, t', h, hr => by
    simp only [stmt, Outcome.bind_eq_ok, Outcome.ok.injEq] at h
    obtain ⟨a, ha, b, hb, rfl⟩ := h
    simp only [RawS] at hr ⊢
    exact ⟨⟨hr.1, optional_all (fun x x' hx => (type_raw x x' hx).1) ha hr.2.1,
      (expr_raw init b hb).1 hr.2.2⟩, by simp [declsS]⟩
  | .let_ _ _ _ ty init, t', h, hr => by
    simp only [stmt, Outcome.bind_eq_ok, Outcome.ok.injEq] at h
    obtain ⟨a, ha, b, hb, rfl⟩ := h
    simp only [RawS] at hr ⊢
    exact ⟨⟨hr.1, optional_all (fun x x' hx => (type_raw x x' hx).1) ha hr.2.1,
      optional_all (fun x x' hx => (expr_raw x x' hx).1) hb hr.2.2⟩, by simp [declsS]⟩
  | .staticAssert _ _ e, t', h, hr => by
    simp only [stmt, Outcome.bind_eq_ok, Outcome.ok.injEq] at h
    obtain ⟨a, ha, rfl⟩ := h
    simp only [RawS] at hr ⊢
    exact ⟨⟨hr.1, (expr_raw e a ha).1 hr.2⟩, by simp [declsS]⟩
  | .ifThen _ _ c t, t', h, hr => by
    simp only [stmt, Outcome.bind_eq_ok, Outcome.ok.injEq] at h
    obtain ⟨a, ha, b, hb, rfl⟩ := h
    simp only [RawS] at hr ⊢
    obtain ⟨b1, b2⟩ := stmt_raw t b hb hr.2.2
    exact ⟨⟨hr.1, (expr_raw c a ha).1 hr.2.1, b1⟩, by simp [declsS, b2]⟩
  | .ifElse _ _ c t e, t', h, hr => by
    simp only [stmt, Outcome.bind_eq_ok, Outcome.ok.injEq] at h
    obtain ⟨a, ha, b, hb, d, hd, rfl⟩ := h
    simp only [RawS] at hr ⊢
    obtain ⟨b1, b2⟩ := stmt_raw t b hb hr.2.2.1
    obtain ⟨d1, d2⟩ := stmt_raw e d hd hr.2.2.2
    exact ⟨⟨hr.1, (expr_raw c a ha).1 hr.2.1, b1, d1⟩, by simp [declsS, b2, d2]⟩
  | .while_ _ _ c t, t', h, hr => by
    simp only [stmt, Outcome.bind_eq_ok, Outcome.ok.injEq] at h
    obtain ⟨a, ha, b, hb, rfl⟩ := h
    simp only [RawS] at hr ⊢
    obtain ⟨b1, b2⟩ := stmt_raw t b hb hr.2.2
    exact ⟨⟨hr.1, (expr_raw c a ha).1 hr.2.1, b1⟩, by simp [declsS, b2]⟩
  | .control _ _ c e, t', h, hr => by
    simp only [stmt, Outcome.bind_eq_ok, Outcome.ok.injEq] at h
    obtain ⟨a, ha, rfl⟩ := h
    simp only [RawS] at hr ⊢
    exact ⟨⟨hr.1, fun hc => (optional_none ha).2 (hr.2.1 hc),
      optional_all (fun x x' hx => (expr_raw x x' hx).1) ha hr.2.2⟩, by simp [declsS]⟩
  | .assign _ _ _ _ e, t', h, hr => by
    simp only [stmt, Outcome.bind_eq_ok, Outcome.ok.injEq] at h
    obtain ⟨r, _, a, ha, rfl⟩ := h
    simp only [RawS] at hr ⊢
    exact ⟨⟨hr.1, (expr_raw e a ha).1 hr.2⟩, by simp [declsS]⟩
  | .block _ _ ss, t', h, hr => by
    simp only [stmt, Outcome.bind_eq_ok, Outcome.ok.injEq] at h
    obtain ⟨a, ha, rfl⟩ := h
    simp only [RawS] at hr ⊢
    obtain ⟨a1, a2⟩ := stmts_raw ss a ha hr.2
    exact ⟨⟨hr.1, a1⟩, by simp [declsS, a2]⟩
  | .call e, t', h, hr => by
    simp only [stmt, Outcome.bind_eq_ok, Outcome.ok.injEq] at h
    obtain ⟨a, ha, rfl⟩ := h
    simp only [RawS] at hr ⊢
    refine ⟨?_, by simp [declsS]⟩
    cases e <;> simp only [RawCall] at hr
    simp only [expr, Outcome.bind_eq_ok, Outcome.ok.injEq] at ha
    obtain ⟨r, _, b, hb, rfl⟩ := ha
    simp only [RawCall]
    exact ⟨hr.1, hr.2.1, exprs_raw _ b hb hr.2.2⟩

theorem stmts_raw : (ss ss' : List AStmt) → stmts m ss = .ok ss' → RawSs ss →
    RawSs ss' ∧ declsSs ss' = (declsSs ss).map fun x => (x.1 + m.base, x.2)
  | [], ss', h, _ => by
    simp only [stmts, Outcome.ok.injEq] at h
    subst h
    exact ⟨trivial, rfl⟩
  | t :: ss, ss', h, hr => by
    simp only [stmts, Outcome.bind_eq_ok, Outcome.ok.injEq] at h
    obtain ⟨a, ha, b, hb, rfl⟩ := h
    simp only [RawSs] at hr ⊢
    obtain ⟨a1, a2⟩ := stmt_raw t a ha hr.1
    obtain ⟨b1, b2⟩ := stmts_raw ss b hb hr.2
    exact ⟨⟨a1, b1⟩, by simp [declsSs, a2, b2]⟩

end

theorem params_raw : (ps ps' : List AParam) → params m ps = .ok ps' →
    (∀ p ∈ ps, RawT p.type ∧ CallFreeT p.type) →
    (∀ p ∈ ps', RawT p.type ∧ CallFreeT p.type) ∧ ps'.length = ps.length
  | [], ps', h, _ => by
    simp only [params, Outcome.ok.injEq] at h
    subst h
    simp
  | p :: ps, ps', h, hr => by
    simp only [params, Outcome.bind_eq_ok, Outcome.ok.injEq] at h
    obtain ⟨a, ha, b, hb, rfl⟩ := h
    obtain ⟨b1, b2⟩ := params_raw ps b hb fun q hq => hr q (List.mem_cons_of_mem _ hq)
    obtain ⟨a1, a2⟩ := type_raw p.type a ha
    obtain ⟨p1, p2⟩ := hr p (by simp)
    refine ⟨fun q hq => ?_, by simp [b2]⟩
    rcases List.mem_cons.1 hq with rfl | hq
    · exact ⟨a1 p1, a2 p2⟩
    · exact b1 q hq

theorem substitute_pre {w : List Nat} {ps : List AParam} : ∀ {ws ws' : List Nat} {ps' : List AParam},
    substitute w ws ps = .ok (ws', ps') → (∀ p ∈ ps, RawT p.type ∧ CallFreeT p.type) →
    (∀ x ∈ w, InI128 (x : Int)) →
    (∀ p ∈ ps', PreT p.type ∧ p.type.cv = none) ∧ ps'.map AParam.k = ps.map AParam.k ∧
      ps'.flatMap (fun p => keysT p.type) = ps.flatMap (fun p => keysT p.type) ∧
      ∀ d ∈ ps'.flatMap declsP, DeclOk d.2 := by
  induction ps with
  | nil =>
    intro ws ws' ps' h _ _
    simp only [substitute, Outcome.ok.injEq, Prod.mk.injEq] at h
    obtain ⟨rfl, rfl⟩ := h
    simp
  | cons p ps ih =>
    intro ws ws' ps' h hr hw
    simp only [substitute] at h
    obtain ⟨p1, p2⟩ := hr p (by simp)
    split at h
    · rename_i k cv c ki cvi name ref hp
      simp only [Outcome.bind_eq_ok, Outcome.ok.injEq, Prod.mk.injEq] at h
      obtain ⟨x, hx, ⟨ws1, ps1⟩, h1, rfl, rfl⟩ := h
      obtain ⟨a, b, d, e⟩ := ih h1 (fun q hq => hr q (List.mem_cons_of_mem _ hq)) hw
      have hxw : x ∈ w := by
        simp only [getWidth] at hx
        split at hx
        · rename_i y hy
          simp only [Outcome.ok.injEq] at hx
          subst hx
          exact List.mem_of_getElem? hy
        · simp at hx
      rw [hp] at p1
      simp only [RawT] at p1
      obtain ⟨rfl, -⟩ := p1
      refine ⟨fun q hq => ?_, by simp [b], by simp [d, hp, keysT, keysE], fun q hq => ?_⟩
      · rcases List.mem_cons.1 hq with rfl | hq
        · exact ⟨.width, rfl⟩
        · exact a q hq
      · simp only [List.flatMap_cons, List.mem_append] at hq
        rcases hq with hq | hq
        · simp only [declsP, List.mem_cons, List.not_mem_nil, or_false] at hq
          rcases hq with rfl | rfl
          · trivial
          · exact VOk.known ⟨trivial, hw x hxw⟩
        · exact e q hq
    · rename_i hp
      simp only [Outcome.bind_eq_ok, Outcome.ok.injEq, Prod.mk.injEq] at h
      obtain ⟨⟨ws1, ps1⟩, h1, rfl, rfl⟩ := h
      obtain ⟨a, b, d, e⟩ := ih h1 (fun q hq => hr q (List.mem_cons_of_mem _ hq)) hw
      have hcv : p.type.cv = none := by
        cases ht : p.type <;> rw [ht] at p1 <;> simp only [RawT] at p1
        · exact p1
        · exact p1.1
      refine ⟨fun q hq => ?_, by simp [b], by simp [d], fun q hq => ?_⟩
      · rcases List.mem_cons.1 hq with rfl | hq
        · exact ⟨.raw p1 p2, hcv⟩
        · exact a q hq
      · simp only [List.flatMap_cons, List.mem_append] at hq
        rcases hq with hq | hq
        · simp only [declsP, List.mem_cons, List.not_mem_nil, or_false] at hq
          subst hq
          rw [hcv]
          trivial
        · exact e q hq

end Inst

/-! ## Instances -/

/-- What is known of a new instance. -/
structure NewInst (base : Nat) (f g : AFn) : Prop where
  k : g.k = f.k + base
  generic : g.generic = false
  level : g.level = .unanalyzed
  cv : g.cv = f.cv
  keys : Inst.keys g = (Inst.keys f).map (· + base)
  paramKeys : g.params.map AParam.k = (f.params.map AParam.k).map (· + base)
  length : g.params.length = f.params.length
  params : ∀ p ∈ g.params, PreT p.type ∧ p.type.cv = none
  paramDecls : ∀ d ∈ g.params.flatMap declsP, DeclOk d.2
  ret : RawT g.ret ∧ CallFreeT g.ret
  reqs : ∀ e ∈ g.requires_, RawE e
  reqsNone : g.requires_ = none ↔ f.requires_ = none
  raw : RawSs g.body
  refs : refsSs g.body = (refsSs f.body).map (Lookup.shift base)
  inside : ∀ r ∈ refsSs f.body, Inside (Inst.keys f) (f.params.map AParam.k) r

theorem newInst {N : Nat} {s : ASt} {f g : AFn} {base : Nat} {w : List Nat} {i : AInstance}
    (hg : GenericInv N s f) (hw : ∀ x ∈ w, InI128 (x : Int))
    (h : Inst.function base f w = .ok (i, some g)) : i.key = g.k ∧ NewInst base f g := by
  simp only [Inst.function, Outcome.bind_eq_ok, Outcome.assert] at h
  obtain ⟨_, -, r, h1, h2⟩ := h
  cases r with
  | some j => simp at h2
  | none =>
    simp only [Outcome.bind_eq_ok, Outcome.ok.injEq, Prod.mk.injEq, Option.some.injEq] at h2
    obtain ⟨g', hc, ⟨ws, ps⟩, hs, rfl, rfl⟩ := h2
    obtain ⟨a1, a2, a3, a4, a5, a6, a7, a8⟩ := Inst.copy_ok hc
    refine ⟨rfl, ?_⟩
    simp only [Inst.copy] at hc
    split at hc
    · simp at hc
    simp only [Outcome.bind_eq_ok, Outcome.ok.injEq] at hc
    obtain ⟨ps', hps, ret, hret, req, hreq, body, hbody, rfl⟩ := hc
    simp only at a3 a4 hs ⊢
    obtain ⟨p1, p2⟩ := Inst.params_raw _ _ hps hg.params
    obtain ⟨q1, q2, q3, q4⟩ := Inst.substitute_pre hs p1 hw
    obtain ⟨r1, r2⟩ := Inst.type_raw _ _ hret
    obtain ⟨b1, b2, b3⟩ := Inst.stmts_ok _ _ hbody
    have hlen : ps.length = ps'.length := by
      have := congrArg List.length q2
      simpa using this
    exact {
      k := rfl
      generic := rfl
      level := rfl
      cv := rfl
      keys := by
        simp only [Inst.keys] at a3 ⊢
        rw [q3]
        exact a3
      paramKeys := by simp only [q2]; exact a4
      length := by simp only [hlen, p2]
      params := q1
      paramDecls := q4
      ret := ⟨r1 hg.ret.1, r2 hg.ret.2⟩
      reqs := Inst.optional_all (fun x x' hx => (Inst.expr_raw x x' hx).1) hreq hg.reqs
      reqsNone := Inst.optional_none hreq
      raw := (Inst.stmts_raw _ _ hbody hg.raw).1
      refs := b2
      inside := b1 }

theorem nodup_shift {l : List Key} (h : l.Nodup) (b : Nat) : (l.map (· + b)).Nodup := by
  rw [List.nodup_iff_pairwise_ne, List.pairwise_map]
  refine (List.nodup_iff_pairwise_ne.1 h).imp ?_
  intro x y hxy e
  exact hxy (Nat.add_right_cancel e)

theorem DeclOk.none (kd : DeclKind) : DeclOk ⟨kd, none⟩ := by cases kd <;> trivial

/-- A new instance is added. -/
theorem addInstance_ok {N : Nat} {s : ASt} (h : Inv N s) {f g : AFn} {k : Key}
    (hf : s.fns k = some f) (hgen : f.generic = true) {i : AInstance} (hi : i.key = g.k)
    (hn : NewInst s.next f g) {s' : ASt}
    (hs' : ASt.setFn { Ana.addFunction g s with next := s.next + s.next } f.k
      { f with instances := f.instances ++ [i] } = s') :
    Inv N s' ∧ Ext [] s s' ∧ s'.fns g.k = some g ∧ N ≤ g.k := by
  have hfi := h.fn k f hf
  have hgi := hfi.gen hgen
  obtain ⟨hk, hklt⟩ := hfi.key
  subst hk
  let f' : AFn := { f with instances := f.instances ++ [i] }
  have hgk : s.next ≤ g.k := by rw [hn.k]; exact Nat.le_add_left _ _
  have hgne : g.k ≠ f.k := fun e => absurd (e ▸ hgk) (Nat.not_le.2 hklt)
  have hfns : ∀ j, s'.fns j = if j = f.k then some f' else if j = g.k then some g else s.fns j := by
    intro j; rw [← hs']; rfl
  have hfg : s'.fns g.k = some g := by rw [hfns, if_neg hgne, if_pos rfl]
  have hff : s'.fns f.k = some f' := by rw [hfns, if_pos rfl]
  have hother : ∀ j, j ≠ f.k → j ≠ g.k → s'.fns j = s.fns j := fun j h1 h2 => by
    rw [hfns, if_neg h1, if_neg h2]
  have hold : ∀ j x, s.fns j = some x → j < s.next := fun j x hj => (h.fn j x hj).key.2
  have hdecl : s'.decl = insertAll (declsF g) s.decl := by
    rw [← hs', ← addFunction_decl hn.raw]; rfl
  have hnext : s'.next = s.next + s.next := by rw [← hs']; rfl
  have hstack : s'.stack = s.stack := by rw [← hs']; rfl
  have hcode : s'.code = s.code := by rw [← hs']; rfl
  have hkeys : (Inst.keys g ++ g.params.map AParam.k) =
      (Inst.keys f ++ f.params.map AParam.k).map (· + s.next) := by
    rw [hn.keys, hn.paramKeys, List.map_append]
  have hnd : (Inst.keys g ++ g.params.map AParam.k).Nodup := by
    rw [hkeys]; exact nodup_shift hgi.keys.1 _
  have hrange : ∀ x ∈ (declsF g).map Prod.fst, s.next ≤ x ∧ x < s.next + s.next := by
    intro x hx
    have := declsF_mem hx
    rw [hkeys] at this
    obtain ⟨y, hy, rfl⟩ := List.mem_map.1 this
    exact ⟨Nat.le_add_left _ _, Nat.add_lt_add_right (hgi.keys.2 y hy).1 _⟩
  have hlt : ∀ x, x < s.next → s'.decl x = s.decl x := by
    intro x hx
    rw [hdecl, insertAll_not]
    exact fun hm => absurd (hrange x hm).1 (Nat.not_le.2 hx)
  have hkeep : ∀ x d, s.decl x = some d → s'.decl x = some d := fun x d hx =>
    (hlt x (h.declKey x d hx).1).trans hx
  have hle : FnLe f f' := ⟨rfl, rfl, rfl, Nat.le_refl _, fun _ => ⟨rfl, rfl⟩, fun _ => rfl,
    fun _ => rfl, rfl⟩
  have hgrow : ∀ j x, s.fns j = some x → ∃ x', s'.fns j = some x' ∧ FnLe x x' := by
    intro j x hj
    by_cases e : j = f.k
    · subst e
      rw [hf] at hj
      cases hj
      exact ⟨f', hff, hle⟩
    · refine ⟨x, (hother j e ?_).trans hj, .refl x⟩
      rintro rfl
      exact absurd (hold _ _ hj) (Nat.not_lt.2 hgk)
  have hgr : Grows s s' := ⟨fun x kd v hx => hkeep x _ hx, hgrow, [], by simp [hcode]⟩
  have hnone : s.fns g.k = none := by
    cases e : s.fns g.k with
    | none => rfl
    | some x => exact absurd (hold _ _ e) (Nat.not_lt.2 hgk)
  have hnew : ∀ j x, s'.fns j = some x → s.fns j = none → j = g.k ∧ x = g := by
    intro j x hj hjn
    by_cases e : j = f.k
    · subst e; rw [hf] at hjn; cases hjn
    · by_cases e' : j = g.k
      · subst e'; rw [hfg] at hj; cases hj; exact ⟨rfl, rfl⟩
      · rw [hother j e e', hjn] at hj; cases hj
  have hparam : ∀ x, IsParam s x → IsParam s' x := fun x ⟨cv, hx⟩ => ⟨cv, hkeep x _ hx⟩
  have hog : ∀ x ∈ owned g, s.next ≤ x ∧ x < s.next + s.next := fun x hx => hrange x (owned_mem hx)
  have hNg : N ≤ g.k := Nat.le_trans h.next hgk
  have hdnd := declsF_nodup hnd
  have hng : g.k ∉ s'.stack := by
    rw [hstack]
    intro hm
    obtain ⟨x, hx, _⟩ := h.stackFns _ hm
    rw [hnone] at hx; cases hx
  have hfgi : FnInv N s' (g.k ∈ s'.stack) g.k g := {
    key := ⟨rfl, by rw [hnext, hn.k]; exact Nat.add_lt_add_right hklt _⟩
    ownedLt := fun x hx => by rw [hnext]; exact (hog x hx).2
    ownedNodup := owned_nodup hdnd
    paramDecl := fun p hp => by rw [hdecl]; exact insertAll_mem _ _ hdnd _ (declsF_param hp)
    bodyDecl := fun d hd => ⟨none, by rw [hdecl]; exact insertAll_mem _ _ hdnd _ (declsF_body hd)⟩
    plain := fun _ => {
      params := fun p hp => (hn.params p hp).1
      ret := .raw hn.ret.1 hn.ret.2
      sigParams := fun hl => absurd hn.level hl
      sigRet := fun hl => absurd hn.level hl
      cv := fun hl => absurd hn.level hl
      cvNone := fun _ => hn.cv.trans hgi.cv
      reqs := fun e he => .inl ⟨hn.level, hn.reqs e he⟩
      raw := fun _ _ => ⟨hn.raw, fun x hx kd v he => by
        obtain ⟨d, hd, rfl⟩ := List.mem_map.1 hx
        have := insertAll_mem _ s.decl hdnd _ (declsF_body hd)
        rw [hdecl] at he
        rw [he] at this
        simp at this⟩
      typed := fun hl => by rw [hn.level] at hl; simp [Level.rank] at hl
      typedConst := fun hl => by rw [hn.level] at hl; cases hl
      noSelf := fun _ hr hm => by
        rw [hn.refs] at hm
        obtain ⟨r, hr', he⟩ := List.mem_map.1 hm
        cases r with
        | builtin => simp [Lookup.shift] at he
        | param => simp [Lookup.shift] at he
        | node j =>
          simp only [Lookup.shift, Lookup.node.injEq, hn.k] at he
          have := Nat.add_right_cancel he
          subst this
          exact hgi.noSelf (fun e => hr (hn.reqsNone.2 e)) hr'
      instRefs := fun _ _ j hj => by
        rw [hn.refs] at hj
        obtain ⟨r, hr', he⟩ := List.mem_map.1 hj
        have hin := hn.inside r hr'
        cases r with
        | builtin => simp [Lookup.shift] at he
        | param => simp [Lookup.shift] at he
        | node j0 =>
          simp only [Lookup.shift, Lookup.node.injEq] at he
          simp only [Inside] at hin
          have := (hgi.keys.2 j0 (List.mem_append_left _ hin)).1
          subst he
          refine ⟨by rw [hnext]; exact Nat.add_lt_add_right this _, fun x hx => ?_⟩
          cases e : s.fns (j0 + s.next) with
          | none => exact (hnew _ _ hx e).1
          | some y => exact absurd (hold _ _ e) (Nat.not_lt.2 (Nat.le_add_left _ _))
      paramRefs := fun _ j hj => by
        rw [hn.refs] at hj
        obtain ⟨r, hr', he⟩ := List.mem_map.1 hj
        have hin := hn.inside r hr'
        cases r with
        | builtin => simp [Lookup.shift] at he
        | node => simp [Lookup.shift] at he
        | param j0 =>
          simp only [Lookup.shift, Lookup.param.injEq] at he
          simp only [Inside] at hin
          subst he
          have : j0 + s.next ∈ g.params.map AParam.k := by
            rw [hn.paramKeys]; exact List.mem_map_of_mem hin
          obtain ⟨p, hp, hpk⟩ := List.mem_map.1 this
          refine ⟨p.type.cv, ?_⟩
          rw [← hpk, hdecl]
          exact insertAll_mem _ _ hdnd _ (declsF_param hp)
      valsParams := fun p hp hs => by rw [(hn.params p hp).2] at hs; cases hs
      valsRet := fun hs => by rw [rawT_cv hn.ret.1] at hs; cases hs
      valsReqs := fun e he hs => by rw [rawE_cv (hn.reqs e he)] at hs; cases hs
      valsBody := fun hl => by rw [hn.level] at hl; exact absurd hl (by decide) }
    gen := fun e => by rw [hn.generic] at e; cases e }
  have hloaded : LoadedInv s' := by
    refine h.loaded.same hcode (fun j => ?_) (fun j => ?_) <;>
      simp only [progOf, addrOf, hfns] <;> split
    · rename_i e; subst e; simp [f', hf, hgen]
    · split
      · rename_i e; subst e; simp [hnone, hn.level]
      · rfl
    · rename_i e; subst e; simp [f', hf, hgen]
    · split
      · rename_i e; subst e; simp [hnone, hn.level]
      · rfl
  refine ⟨⟨?_, ?_, ?_, ?_, ?_, ?_, by rw [hcode]; exact h.code, hloaded⟩, ?_, hfg, hNg⟩
  · rw [hnext]; exact Nat.le_trans h.next (Nat.le_add_left _ _)
  · intro x d hx
    rw [hdecl] at hx
    rw [hnext]
    rcases insertAll_cases _ _ _ _ hx with hm | ⟨_, hx⟩
    · have hm' : x ∈ (declsF g).map Prod.fst := List.mem_map.2 ⟨_, hm, rfl⟩
      refine ⟨(hrange x hm').2, ?_⟩
      have := declsF_mem hm'
      rw [hkeys] at this
      obtain ⟨y, hy, rfl⟩ := List.mem_map.1 this
      have := (hgi.keys.2 y hy).2
      exact fun e => this (Nat.eq_zero_of_add_eq_zero_right e)
    · obtain ⟨h1, h2⟩ := h.declKey x d hx
      exact ⟨Nat.lt_of_lt_of_le h1 (Nat.le_add_left _ _), h2⟩
  · intro x d hx
    rw [hdecl] at hx
    rcases insertAll_cases _ _ _ _ hx with hm | ⟨_, hx⟩
    · rcases List.mem_append.1 hm with hm | hm
      · exact hn.paramDecls _ hm
      · obtain ⟨y, _, he⟩ := List.mem_map.1 hm
        cases he
        exact .none _
    · exact h.declOk x d hx
  · intro j x hj
    by_cases e : j = g.k
    · subst e
      rw [hfg] at hj
      cases hj
      exact hfgi
    · have hgrow' : ∀ y, s.fns j = some y → FnInv N s' (j ∈ s'.stack) j y := fun y hy =>
        (h.fn j y hy).grow (by rw [hnext]; exact Nat.le_add_left _ _) hgr
          (fun z hz => hlt z ((h.fn j y hy).ownedLt z hz)) (by rw [hstack])
          (fun a b hab hn' => by rw [(hnew a b hab hn').1]; exact hgk) hparam
      by_cases e' : j = f.k
      · subst e'
        rw [hff] at hj
        cases hj
        have hb := hgrow' f hf
        have hbg := hb.gen hgen
        exact {
          key := hb.key
          ownedLt := hb.ownedLt
          ownedNodup := hb.ownedNodup
          paramDecl := hb.paramDecl
          bodyDecl := hb.bodyDecl
          plain := fun e => by
            rw [show f'.generic = f.generic from rfl, hgen] at e; cases e
          gen := fun _ => {
            params := hbg.params
            ret := hbg.ret
            reqs := hbg.reqs
            raw := hbg.raw
            unset := hbg.unset
            level := hbg.level
            cv := hbg.cv
            noSelf := hbg.noSelf
            keys := hbg.keys
            instances := fun a ha => by
              rcases List.mem_append.1 ha with ha | ha
              · exact hbg.instances a ha
              · rw [List.mem_singleton.1 ha, hi]
                exact ⟨hNg, g, hfg, hn.generic, hn.length⟩ } }
      · rw [hother j e' e] at hj
        exact hgrow' x hj
  · intro a b x y ha hb hab z hz hz'
    have hcase : ∀ c w, s'.fns c = some w → (c = g.k ∧ w = g) ∨
        ∃ w0, s.fns c = some w0 ∧ owned w = owned w0 := by
      intro c w hc
      cases e : s.fns c with
      | none => exact .inl (hnew c w hc e)
      | some w0 =>
        obtain ⟨w', hw', hl⟩ := hgrow c w0 e
        rw [hc] at hw'
        cases hw'
        exact .inr ⟨w0, rfl, hl.owned⟩
    rcases hcase a x ha with ⟨rfl, rfl⟩ | ⟨x0, hx0, ex⟩ <;>
      rcases hcase b y hb with ⟨rfl, rfl⟩ | ⟨y0, hy0, ey⟩
    · exact hab rfl
    · rw [ey] at hz'
      exact absurd ((h.fn b y0 hy0).ownedLt z hz') (Nat.not_lt.2 (hog z hz).1)
    · rw [ex] at hz
      exact absurd ((h.fn a x0 hx0).ownedLt z hz) (Nat.not_lt.2 (hog z hz').1)
    · rw [ex] at hz
      rw [ey] at hz'
      exact h.disjoint a b x0 y0 hx0 hy0 hab z hz hz'
  · intro j hj
    rw [hstack] at hj
    obtain ⟨x, hx, hxg⟩ := h.stackFns j hj
    obtain ⟨x', hx', hl⟩ := hgrow j x hx
    exact ⟨x', hx', hl.generic.trans hxg⟩
  · exact {
      stack := hstack
      next := by rw [hnext]; exact Nat.le_add_left _ _
      declSome := fun x kd v hx => hkeep x _ hx
      declKind := fun x d hx => ⟨d, hkeep x d hx, rfl⟩
      fns := hgrow
      newFns := fun j x hj hjn => by
        obtain ⟨rfl, rfl⟩ := hnew j x hj hjn
        exact ⟨hgk, fun y hy => (hog y hy).1⟩
      onStack := fun j hj => by
        obtain ⟨x, hx, hxg⟩ := h.stackFns j hj
        refine hother j ?_ ?_
        · rintro rfl
          rw [hf] at hx
          cases hx
          rw [hgen] at hxg; cases hxg
        · rintro rfl
          rw [hnone] at hx; cases hx
      onStackDecl := fun j _ x hx y hy _ => hlt y ((h.fn j x hx).ownedLt y hy)
      unowned := fun x hx _ => hlt x hx
      code := ⟨[], by simp [hcode]⟩ }

theorem width_le {t : CType} (h : t.WF) : InI128 ((t.width : Nat) : Int) := by
  have : t.width < 2 ^ 64 := by
    cases t with
    | uint w => have h' : 0 < w ∧ w < 128 := by simpa [CType.WF] using h
                simp only [CType.width]; omega
    | void => simp [CType.width]
    | bool => simp [CType.width]
    | int => simp [CType.width]
  simp only [InI128]
  omega

theorem deduce_ok {s s' : ASt} : ∀ {args : List AExpr} {ps : List AParam} {ws : List Nat},
    (∀ a ∈ args, ∀ v, a.cv = some v → VOk v) → Ana.deduce args ps s = .ok ws s' →
    s = s' ∧ ∀ x ∈ ws, InI128 (x : Int) := by
  intro args
  induction args with
  | nil =>
    intro ps ws _ h
    simp only [Ana.deduce, AM.pure_ok] at h
    obtain ⟨rfl, rfl⟩ := h
    simp
  | cons a as ih =>
    intro ps ws ha h
    cases ps with
    | nil =>
      simp only [Ana.deduce, AM.pure_ok] at h
      obtain ⟨rfl, rfl⟩ := h
      simp
    | cons p ps =>
      have ha' : ∀ b ∈ as, ∀ v, b.cv = some v → VOk v := fun b hb => ha b (List.mem_cons_of_mem _ hb)
      simp only [Ana.deduce, AM.bind_ok, AM.assert_ok] at h
      obtain ⟨_, _, ⟨-, rfl⟩, h⟩ := h
      have hide : ∀ b, b = true → (do
          let v ← AM.value a.cv
          if ¬ v.type.isUint then AM.fail .width_deduction_from_non_uint a.key
          else do
            let ws ← Ana.deduce as ps
            pure (v.type.width :: ws) : AM (List Nat)) s = .ok ws s' →
          s = s' ∧ ∀ x ∈ ws, InI128 (x : Int) := by
        intro b _ h
        simp only [AM.bind_ok, AM.value_ok, AM.ite_fail_ok, AM.pure_ok] at h
        obtain ⟨v, _, ⟨hv, rfl⟩, _, ws1, s1, h1, rfl, rfl⟩ := h
        obtain ⟨rfl, h3⟩ := ih ha' h1
        refine ⟨rfl, fun x hx => ?_⟩
        rcases List.mem_cons.1 hx with rfl | hx
        · exact width_le (ha a (by simp) v hv).1
        · exact h3 x hx
      cases hp : p.type with
      | base => rw [hp] at h; simp [AM.throws_ok] at h
      | uint k cv c w =>
        rw [hp] at h
        cases c with
        | some x => exact ih ha' h
        | none =>
          cases w with
          | id ki cvi name ref g =>
            cases g with
            | true => exact hide true rfl h
            | false => exact ih ha' h
          | _ => exact ih ha' h

/-- The called function. -/
theorem callee_ok {N : Nat} {s s' : ASt} (h : Inv N s) {f : AFn} {j0 j : Key}
    (hf : s.fns j0 = some f) {args : List AExpr} (ha : ∀ a ∈ args, ∀ v, a.cv = some v → VOk v)
    (hc : Ana.callee f args s = .ok j s') :
    Inv N s' ∧ Ext [] s s' ∧
      (∃ g, s'.fns j = some g ∧ g.generic = false ∧ g.params.length = f.params.length) ∧
      (f.generic = false → j = j0 ∧ s' = s) ∧ (f.generic = true → N ≤ j) := by
  have hfi := h.fn _ _ hf
  unfold Ana.callee at hc
  split at hc
  · rename_i hgen
    have hgi := hfi.gen hgen
    simp only [AM.bind_ok, AM.assert_ok, AM.read_ok, AM.get_ok] at hc
    obtain ⟨_, _, ⟨-, rfl⟩, ws, s1, hd, _, _, ⟨rfl, rfl⟩, r, _, ⟨hr, rfl⟩, hc⟩ := hc
    obtain ⟨rfl, hw⟩ := deduce_ok ha hd
    split at hc
    · rename_i i
      simp only [AM.pure_ok] at hc
      obtain ⟨rfl, rfl⟩ := hc
      refine ⟨h, .refl _ _, ?_, fun e => (by rw [hgen] at e; cases e), fun _ => ?_⟩
      all_goals
        simp only [Inst.function, Outcome.bind_eq_ok, Outcome.assert] at hr
        obtain ⟨_, -, o, h1, h2⟩ := hr
        cases o with
        | none =>
          simp only [Outcome.bind_eq_ok, Outcome.ok.injEq, Prod.mk.injEq] at h2
          obtain ⟨_, _, _, _, _, h3⟩ := h2
          cases h3
        | some i' =>
          simp only [Outcome.ok.injEq, Prod.mk.injEq, and_true] at h2
          subst h2
          obtain ⟨h3, -⟩ := Inst.findInstance_spec _ _ _ h1
          first
          | exact (hgi.instances _ (h3 _ rfl).1).2
          | exact (hgi.instances _ (h3 _ rfl).1).1
    · rename_i i g
      simp only [AM.bind_ok, AM.modify_ok, AM.pure_ok] at hc
      obtain ⟨_, s1, hs1, _, s2, hs2, rfl, rfl⟩ := hc
      subst hs1
      obtain ⟨hi, hn⟩ := newInst hgi hw hr
      obtain ⟨a, b, c, d⟩ := addInstance_ok h hf hgen hi hn hs2
      exact ⟨a, b, ⟨g, hi ▸ c, hn.generic, hn.length⟩, fun e => (by rw [hgen] at e; cases e),
        fun _ => hi ▸ d⟩
  · rename_i hgen
    simp only [AM.pure_ok] at hc
    obtain ⟨rfl, rfl⟩ := hc
    have hg : f.generic = false := by simpa using hgen
    refine ⟨h, .refl _ _, ⟨f, by rw [hfi.key.1]; exact hf, hg, rfl⟩, fun _ => ⟨hfi.key.1, rfl⟩,
      fun e => absurd e hgen⟩

end Bms
