import Verif.Lemmas.Renumber

/-!
# Other addresses of nodes: the rules for programs
-/

namespace Bms

open Spec

namespace Renumber

variable {τ : Key → Key}

/-- The same facts about other addresses. -/
structure FactsOn (τ : Key → Key) (K K' : Facts) : Prop where
  kinds : ∀ j d, K.kinds.contains (τ j, d) = K'.kinds.contains (j, d)
  fns : ∀ j, K.fns.contains (τ j) = K'.fns.contains j
  value : ∀ j, K.value (τ j) = K'.value j

theorem FactsOn.declared {K K' : Facts} (h : FactsOn τ K K') (j : Key) : K.declared (τ j) = K'.declared j := by
  simp only [Facts.declared, h.kinds, h.fns]

mutual

theorem constE_ren {K K' : Facts} (h : FactsOn τ K K') : (e : AExpr) → constE K (expr τ e) = constE K' e
  | .literal .. => by simp only [constE, expr]
  | .id _ _ _ r _ => by
    cases r with
    | none => simp only [constE, expr, Option.map_none]
    | some r => cases r <;> simp only [constE, expr, Option.map_some, lookup, h.kinds, h.value, h.declared]
  | .conversion _ _ e ty => by simp only [constE, expr, constE_ren h e, constT_ren h ty]
  | .ite _ _ l c r => by simp only [constE, expr, constE_ren h l, constE_ren h c, constE_ren h r]
  | .binary _ _ _ l r => by simp only [constE, expr, constE_ren h l, constE_ren h r]
  | .prefix _ _ _ e => by simp only [constE, expr, constE_ren h e]
  | .call .. => by simp only [constE, expr]

theorem constT_ren {K K' : Facts} (h : FactsOn τ K K') : (ty : AType) → constT K (type τ ty) = constT K' ty
  | .base .. => by simp only [constT, type]
  | .uint _ _ _ w => by simp only [constT, type, constE_ren h w]

end

theorem openE_ren {K K' : Facts} (h : FactsOn τ K K') : (e : AExpr) → openE K (expr τ e) = openE K' e
  | .literal .. => by simp only [openE, expr]
  | .id _ _ _ r _ => by
    cases r with
    | none => simp only [openE, expr, Option.map_none]
    | some r => cases r <;> simp only [openE, expr, Option.map_some, lookup, h.kinds]
  | .conversion _ _ e _ => by simp only [openE, expr, openE_ren h e]
  | .ite _ _ l c r => by simp only [openE, expr, openE_ren h l, openE_ren h c, openE_ren h r]
  | .binary _ _ _ l r => by simp only [openE, expr, openE_ren h l, openE_ren h r]
  | .prefix _ _ _ e => by simp only [openE, expr, openE_ren h e]
  | .call _ _ _ _ r _ => by
    cases r with
    | none => simp only [openE, expr, Option.map_none]
    | some r => cases r <;> simp only [openE, expr, Option.map_some, lookup]

/-- Different addresses stay different. -/
abbrev Inj (τ : Key → Key) : Prop := ∀ a b, τ a = τ b → a = b

theorem Inj.eq (hi : Inj τ) (a b : Key) : (τ a = τ b) = (a = b) :=
  propext ⟨hi a b, fun e => by rw [e]⟩

theorem contains_ren (hi : Inj τ) (l : List Key) (j : Key) : (l.map τ).contains (τ j) = l.contains j := by
  rw [Bool.eq_iff_iff]
  simp only [List.contains_iff_mem, List.mem_map]
  constructor
  · rintro ⟨a, ha, e⟩
    rw [← hi _ _ e]
    exact ha
  · exact fun h => ⟨j, h, rfl⟩

theorem bad_ren (hi : Inj τ) (bad : Option Key) (j : Key) : (bad.map τ ≠ some (τ j)) = (bad ≠ some j) := by
  cases bad with
  | none => simp
  | some b => simp only [Option.map_some, ne_eq, Option.some.injEq, hi.eq]

mutual

theorem calmE_ren {K K' : Facts} (h : FactsOn τ K K') (hi : Inj τ) (own : List Key) (bad : Option Key) :
    (e : AExpr) → calmE K (own.map τ) (bad.map τ) (expr τ e) = calmE K' own bad e
  | .literal .. => by simp only [calmE, expr]
  | .id _ _ _ r _ => by
    cases r with
    | none => simp only [calmE, expr, Option.map_none]
    | some r => cases r <;> simp only [calmE, expr, Option.map_some, lookup, h.declared, contains_ren hi]
  | .conversion _ _ e ty => by simp only [calmE, expr, calmE_ren h hi own bad e, constT_ren h ty]
  | .ite _ _ l c r => by
    simp only [calmE, expr, calmE_ren h hi own bad l, calmE_ren h hi own bad c, calmE_ren h hi own bad r]
  | .binary _ _ _ l r => by
    simp only [calmE, expr, calmE_ren h hi own bad l, calmE_ren h hi own bad r, calmOp, openE_ren h, constE_ren h]
  | .prefix _ _ _ e => by
    simp only [calmE, expr, calmE_ren h hi own bad e, calmPrefix, openE_ren h, constE_ren h]
  | .call _ _ _ _ r args => by
    cases r with
    | none => simp only [calmE, expr, Option.map_none]
    | some r =>
      cases r <;> simp only [calmE, expr, Option.map_some, lookup, h.declared, calmEs_ren h hi own bad args,
        bad_ren hi]

theorem calmEs_ren {K K' : Facts} (h : FactsOn τ K K') (hi : Inj τ) (own : List Key) (bad : Option Key) :
    (es : List AExpr) → calmEs K (own.map τ) (bad.map τ) (exprs τ es) = calmEs K' own bad es
  | [] => by simp only [calmEs, exprs]
  | e :: es => by simp only [calmEs, exprs, calmE_ren h hi own bad e, calmEs_ren h hi own bad es]

end

theorem calmConst_ren {K K' : Facts} (h : FactsOn τ K K') (k : Key) (ty : Option AType) (e : AExpr) :
    calmConst K (τ k) (ty.map (type τ)) (expr τ e) = calmConst K' k ty e := by
  cases ty <;>
    simp only [calmConst, Option.map_none, Option.map_some, constE_ren h, constT_ren h, h.value]

mutual

theorem declsS_ren : (s : AStmt) → declsS (stmt τ s) = (declsS s).map fun p => (τ p.1, p.2)
  | .const_ .. => by simp only [declsS, stmt, List.map_cons, List.map_nil]
  | .let_ .. => by simp only [declsS, stmt, List.map_cons, List.map_nil]
  | .staticAssert .. => by simp only [declsS, stmt, List.map_nil]
  | .ifThen _ _ _ t => by simp only [declsS, stmt, declsS_ren t]
  | .ifElse _ _ _ t e => by simp only [declsS, stmt, declsS_ren t, declsS_ren e, List.map_append]
  | .while_ _ _ _ b => by simp only [declsS, stmt, declsS_ren b]
  | .control .. => by simp only [declsS, stmt, List.map_nil]
  | .assign .. => by simp only [declsS, stmt, List.map_nil]
  | .block _ _ ss => by simp only [declsS, stmt, declsSs_ren ss]
  | .call .. => by simp only [declsS, stmt, List.map_nil]

theorem declsSs_ren : (ss : List AStmt) → declsSs (stmts τ ss) = (declsSs ss).map fun p => (τ p.1, p.2)
  | [] => by simp only [declsSs, stmts, List.map_nil]
  | s :: ss => by simp only [declsSs, stmts, declsS_ren s, declsSs_ren ss, List.map_append]

end

theorem seen_ren (seen : List Key) (s : AStmt) :
    seen.map τ ++ (declsS (stmt τ s)).map Prod.fst = (seen ++ (declsS s).map Prod.fst).map τ := by
  rw [declsS_ren, List.map_append, List.map_map, List.map_map]
  rfl

theorem all_map {α β : Type} (o : Option α) (f : α → β) (p : β → Bool) : (o.map f).all p = o.all fun x => p (f x) := by
  cases o <;> rfl

mutual

theorem calmS_ren {K K' : Facts} (h : FactsOn τ K K') (hi : Inj τ) (own : List Key) (bad : Option Key) :
    (s : AStmt) → (seen : List Key) →
      calmS K (own.map τ) (bad.map τ) (seen.map τ) (stmt τ s) = calmS K' own bad seen s
  | .const_ .., seen => by simp only [calmS, stmt, calmConst_ren h]
  | .let_ .., seen => by
    simp only [calmS, stmt, constT_ren h, calmE_ren h hi, all_map, Option.isSome_map]
  | .staticAssert .., seen => by simp only [calmS, stmt, constE_ren h]
  | .ifThen _ _ c t, seen => by simp only [calmS, stmt, calmE_ren h hi, calmS_ren h hi own bad t]
  | .ifElse _ _ c t e, seen => by
    simp only [calmS, stmt, calmE_ren h hi, calmS_ren h hi own bad t, seen_ren, calmS_ren h hi own bad e]
  | .while_ _ _ c b, seen => by simp only [calmS, stmt, calmE_ren h hi, calmS_ren h hi own bad b]
  | .control .., seen => by simp only [calmS, stmt, calmE_ren h hi, all_map]
  | .assign _ _ _ r _, seen => by
    cases r with
    | none => simp only [calmS, stmt, Option.map_none, calmE_ren h hi]
    | some r =>
      cases r <;> simp only [calmS, stmt, Option.map_some, lookup, calmE_ren h hi, h.declared, h.kinds,
        contains_ren hi]
  | .block _ _ ss, seen => by simp only [calmS, stmt, calmSs_ren h hi own bad ss]
  | .call e, seen => by simp only [calmS, stmt, calmE_ren h hi]

theorem calmSs_ren {K K' : Facts} (h : FactsOn τ K K') (hi : Inj τ) (own : List Key) (bad : Option Key) :
    (ss : List AStmt) → (seen : List Key) →
      calmSs K (own.map τ) (bad.map τ) (seen.map τ) (stmts τ ss) = calmSs K' own bad seen ss
  | [], seen => by simp only [calmSs, stmts]
  | s :: ss, seen => by
    simp only [calmSs, stmts, calmS_ren h hi own bad s, seen_ren, calmSs_ren h hi own bad ss]

end

theorem param_keys (ps : List AParam) : (ps.map (param τ)).map AParam.k = (ps.map AParam.k).map τ := by
  rw [List.map_map, List.map_map]
  rfl

theorem calmD_ren {K K' : Facts} (h : FactsOn τ K K') (hi : Inj τ) (d : ADecl) :
    calmD K (decl τ d) = calmD K' d := by
  cases d with
  | const_ => simp only [calmD, decl, calmConst_ren h]
  | staticAssert => simp only [calmD, decl, constE_ren h]
  | function f =>
    have hb : (if (f.requires_.map (expr τ)).isSome then none else some (τ f.k)) =
        (if f.requires_.isSome then none else some f.k : Option Key).map τ := by
      cases f.requires_ <;> rfl
    have := calmSs_ren h hi (f.params.map AParam.k) (if f.requires_.isSome then none else some f.k) f.body []
    rw [List.map_nil] at this
    simp only [calmD, decl, calmF, fn, constT_ren h, constE_ren h, all_map, param_keys, hb, this, List.all_map,
      Function.comp_def, param]

theorem kinds_ren (ds : List ADecl) (value value' : Key → Option CVal) :
    (factsOf (ds.map (decl τ)) value).kinds = (factsOf ds value').kinds.map fun p => (τ p.1, p.2) := by
  simp only [factsOf]
  induction ds with
  | nil => rfl
  | cons d ds ih =>
    simp only [List.map_cons, List.flatMap_cons, ih, List.map_append]
    cases d with
    | const_ => rfl
    | staticAssert => rfl
    | function f =>
      simp only [decl, fn, declsSs_ren]

theorem fns_ren (ds : List ADecl) (value value' : Key → Option CVal) :
    (factsOf (ds.map (decl τ)) value).fns = (factsOf ds value').fns.map τ := by
  simp only [factsOf]
  induction ds with
  | nil => rfl
  | cons d ds ih =>
    simp only [List.map_cons, List.flatMap_cons, ih, List.map_append]
    cases d <;> rfl

theorem factsOf_ren (hi : Inj τ) (ds : List ADecl) (value : Key → Option CVal) :
    FactsOn τ (factsOf (ds.map (decl τ)) value) (factsOf ds fun k => value (τ k)) := by
  refine ⟨fun j d => ?_, fun j => ?_, fun j => rfl⟩
  · rw [kinds_ren ds value fun k => value (τ k), Bool.eq_iff_iff]
    simp only [List.contains_iff_mem, List.mem_map, Prod.mk.injEq]
    constructor
    · rintro ⟨⟨a, d'⟩, ha, e, rfl⟩
      rw [← hi _ _ e]
      exact ha
    · exact fun h => ⟨(j, d), h, rfl, rfl⟩
  · rw [fns_ren ds value fun k => value (τ k), contains_ren hi]

/-- Whether a program is calm does not depend on the addresses. -/
theorem calmProgram_ren (hi : Inj τ) {ds : List ADecl} (h : CalmProgram (ds.map (decl τ))) : CalmProgram ds := by
  obtain ⟨value, h⟩ := h
  refine ⟨fun k => value (τ k), fun d hd => ?_⟩
  rw [← calmD_ren (factsOf_ren hi ds value) hi]
  exact h _ (List.mem_map_of_mem hd)

/-! ## Types -/

mutual

theorem mentionsE_ren : (e : AExpr) → mentionsE (expr τ e) = (mentionsE e).map τ
  | .literal .. => by simp only [mentionsE, expr, List.map_nil]
  | .id _ _ _ r _ => by
    cases r with
    | none => simp only [mentionsE, expr, Option.map_none, List.map_nil]
    | some r => cases r <;> simp only [mentionsE, expr, Option.map_some, lookup, List.map_nil, List.map_cons]
  | .conversion _ _ e ty => by simp only [mentionsE, expr, mentionsE_ren e, mentionsT_ren ty, List.map_append]
  | .ite _ _ l c r => by
    simp only [mentionsE, expr, mentionsE_ren l, mentionsE_ren c, mentionsE_ren r, List.map_append]
  | .binary _ _ _ l r => by simp only [mentionsE, expr, mentionsE_ren l, mentionsE_ren r, List.map_append]
  | .prefix _ _ _ e => by simp only [mentionsE, expr, mentionsE_ren e]
  | .call _ _ _ _ _ args => by simp only [mentionsE, expr, mentionsEs_ren args]

theorem mentionsT_ren : (ty : AType) → mentionsT (type τ ty) = (mentionsT ty).map τ
  | .base .. => by simp only [mentionsT, type, List.map_nil]
  | .uint _ _ _ w => by simp only [mentionsT, type, mentionsE_ren w]

theorem mentionsEs_ren : (es : List AExpr) → mentionsEs (exprs τ es) = (mentionsEs es).map τ
  | [] => by simp only [mentionsEs, exprs, List.map_nil]
  | e :: es => by simp only [mentionsEs, exprs, mentionsE_ren e, mentionsEs_ren es, List.map_append]

end

theorem before_ren (hi : Inj τ) (seen js : List Key) : before (seen.map τ) (js.map τ) = before seen js := by
  simp only [before, List.all_map, Function.comp_def, contains_ren hi]

/-- The same types of other addresses. -/
structure TypingOn (τ : Key → Key) (T T' : Typing) : Prop where
  names : FactsOn τ T.names T'.names
  var : ∀ j, T.var (τ j) = T'.var j
  fns : ∀ j, (T.fns.find? fun f => f.k = τ j) = (T'.fns.find? fun f => f.k = j).map (fn τ)

theorem valueE_ren {T T' : Typing} (h : TypingOn τ T T') (hi : Inj τ) (seen : List Key) (e : AExpr) :
    valueE T (seen.map τ) (expr τ e) = valueE T' seen e := by
  simp only [valueE, constE_ren h.names, mentionsE_ren, before_ren hi]

theorem valueT_ren {T T' : Typing} (h : TypingOn τ T T') (hi : Inj τ) (seen : List Key) (ty : AType) :
    valueT T (seen.map τ) (type τ ty) = valueT T' seen ty := by
  simp only [valueT, constT_ren h.names, mentionsT_ren, before_ren hi]

theorem valueTs_ren {T T' : Typing} (h : TypingOn τ T T') (hi : Inj τ) (seen : List Key) (tys : List AType) :
    valueTs T (seen.map τ) (tys.map (type τ)) = valueTs T' seen tys := by
  induction tys with
  | nil => rfl
  | cons ty tys ih => simp only [List.map_cons, valueTs, valueT_ren h hi, ih]

theorem signatureOf_ren {T T' : Typing} (h : TypingOn τ T T') (hi : Inj τ) (seen : List Key) (j : Key) :
    signatureOf T (seen.map τ) (τ j) = signatureOf T' seen j := by
  simp only [signatureOf, h.fns]
  cases T'.fns.find? fun f => f.k = j with
  | none => rfl
  | some f =>
    have hp : (f.params.map (param τ)).map AParam.type = (f.params.map AParam.type).map (type τ) := by
      rw [List.map_map, List.map_map]
      rfl
    simp only [Option.map_some, fn, hp, valueTs_ren h hi, valueT_ren h hi, all_map, valueE_ren h hi]

theorem mayHold_ren {T T' : Typing} (h : TypingOn τ T T') (hi : Inj τ) (seen : List Key) (e : AExpr) :
    mayHold T (seen.map τ) (expr τ e) = mayHold T' seen e := by
  simp only [mayHold, openE_ren h.names, valueE_ren h hi]

theorem allHold_ren {T T' : Typing} (h : TypingOn τ T T') (hi : Inj τ) (seen : List Key) (es : List AExpr) :
    (exprs τ es).all (mayHold T (seen.map τ)) = es.all (mayHold T' seen) := by
  induction es with
  | nil => simp only [exprs, List.all_nil]
  | cons e es ih => simp only [exprs, List.all_cons, mayHold_ren h hi, ih]

mutual

theorem typeE_ren {T T' : Typing} (h : TypingOn τ T T') (hi : Inj τ) (self : Key) (own seen : List Key) :
    (e : AExpr) → typeE T (τ self) (own.map τ) (seen.map τ) (expr τ e) = typeE T' self own seen e
  | .literal .. => by simp only [typeE, expr]
  | .id _ _ _ r _ => by
    cases r with
    | none => simp only [typeE, expr, Option.map_none]
    | some r =>
      cases r <;> simp only [typeE, expr, Option.map_some, lookup, h.names.kinds, h.names.value, h.var,
        contains_ren hi]
  | .conversion _ _ e ty => by simp only [typeE, expr, typeE_ren h hi self own seen e, valueT_ren h hi]
  | .ite _ _ l c r => by
    simp only [typeE, expr, typeE_ren h hi self own seen l, typeE_ren h hi self own seen c,
      typeE_ren h hi self own seen r]
  | .binary _ _ _ l r => by
    simp only [typeE, expr, typeE_ren h hi self own seen l, typeE_ren h hi self own seen r]
  | .prefix _ _ _ e => by simp only [typeE, expr, typeE_ren h hi self own seen e]
  | .call _ _ _ _ r args => by
    cases r with
    | none => simp only [typeE, expr, Option.map_none]
    | some r =>
      cases r <;> cases ht : typeEs T' self own seen args <;>
        simp only [typeE, expr, Option.map_some, lookup, typeEs_ren h hi self own seen args, ht,
          allHold_ren h hi, signatureOf_ren h hi, hi.eq, ne_eq]

theorem typeEs_ren {T T' : Typing} (h : TypingOn τ T T') (hi : Inj τ) (self : Key) (own seen : List Key) :
    (es : List AExpr) → typeEs T (τ self) (own.map τ) (seen.map τ) (exprs τ es) = typeEs T' self own seen es
  | [] => by simp only [typeEs, exprs]
  | e :: es => by
    simp only [typeEs, exprs, typeE_ren h hi self own seen e, typeEs_ren h hi self own seen es]

end

theorem constantOf_ren {T T' : Typing} (h : TypingOn τ T T') (hi : Inj τ) (seen : List Key)
    (ty : Option AType) (e : AExpr) :
    constantOf T (seen.map τ) (ty.map (type τ)) (expr τ e) = constantOf T' seen ty e := by
  cases ty <;> simp only [constantOf, Option.map_none, Option.map_some, valueE_ren h hi, valueT_ren h hi]

theorem okConst_ren {T T' : Typing} (h : TypingOn τ T T') (hi : Inj τ) (seen : List Key) (k : Key)
    (ty : Option AType) (e : AExpr) :
    okConst T (seen.map τ) (τ k) (ty.map (type τ)) (expr τ e) = okConst T' seen k ty e := by
  simp only [okConst, constantOf_ren h hi, h.names.kinds, h.names.value]

theorem varType_ren {T T' : Typing} (h : TypingOn τ T T') (hi : Inj τ) (self : Key) (own seen : List Key)
    (ty : Option AType) (e : Option AExpr) :
    varType T (τ self) (own.map τ) (seen.map τ) (ty.map (type τ)) (e.map (expr τ)) =
      varType T' self own seen ty e := by
  cases ty <;> cases e <;> simp only [varType, Option.map_none, Option.map_some, typeE_ren h hi, valueT_ren h hi]

theorem fits_ren {T T' : Typing} (h : TypingOn τ T T') (hi : Inj τ) (self : Key) (own seen : List Key)
    (e : AExpr) (t : CType) :
    fits T (τ self) (own.map τ) (seen.map τ) (expr τ e) t = fits T' self own seen e t := by
  simp only [fits, typeE_ren h hi]

theorem declares_ren (seen : List Key) (s : AStmt) :
    seen.map τ ++ declares (stmt τ s) = (seen ++ declares s).map τ := by
  cases s <;> simp only [declares, stmt, List.map_append, List.map_cons, List.map_nil]

mutual

theorem okS_ren {T T' : Typing} (h : TypingOn τ T T') (hi : Inj τ) (self : Key) (own : List Key) (ret : CType) :
    (s : AStmt) → (loop : Bool) → (seen : List Key) →
      okS T (τ self) (own.map τ) ret loop (seen.map τ) (stmt τ s) = okS T' self own ret loop seen s
  | .const_ .., loop, seen => by simp only [okS, stmt, okConst_ren h hi]
  | .let_ .., loop, seen => by simp only [okS, stmt, varType_ren h hi, h.names.kinds, h.var]
  | .staticAssert .., loop, seen => by simp only [okS, stmt, valueE_ren h hi]
  | .ifThen _ _ c t, loop, seen => by
    simp only [okS, stmt, typeE_ren h hi, okS_ren h hi self own ret t]
  | .ifElse _ _ c t e, loop, seen => by
    simp only [okS, stmt, typeE_ren h hi, okS_ren h hi self own ret t, okS_ren h hi self own ret e]
  | .while_ _ _ c b, loop, seen => by
    simp only [okS, stmt, typeE_ren h hi, okS_ren h hi self own ret b]
  | .control _ _ c e, loop, seen => by
    cases c <;> cases e <;> simp only [okS, stmt, Option.map_none, Option.map_some, fits_ren h hi]
  | .assign _ _ _ r _, loop, seen => by
    cases r with
    | none => simp only [okS, stmt, Option.map_none]
    | some r =>
      cases r <;> simp only [okS, stmt, Option.map_some, lookup, h.names.kinds, h.var, contains_ren hi,
        fits_ren h hi]
  | .block _ _ ss, loop, seen => by simp only [okS, stmt, okSs_ren h hi self own ret ss]
  | .call e, loop, seen => by simp only [okS, stmt, typeE_ren h hi]

theorem okSs_ren {T T' : Typing} (h : TypingOn τ T T') (hi : Inj τ) (self : Key) (own : List Key) (ret : CType) :
    (ss : List AStmt) → (loop : Bool) → (seen : List Key) →
      okSs T (τ self) (own.map τ) ret loop (seen.map τ) (stmts τ ss) = okSs T' self own ret loop seen ss
  | [], loop, seen => by simp only [okSs, stmts]
  | s :: ss, loop, seen => by
    simp only [okSs, stmts, okS_ren h hi self own ret s, declares_ren, okSs_ren h hi self own ret ss]

end

theorem okParams_ren {T T' : Typing} (h : TypingOn τ T T') (ps : List AParam) (ts : List CType) :
    okParams T (ps.map (param τ)) ts = okParams T' ps ts := by
  induction ps generalizing ts with
  | nil => cases ts <;> rfl
  | cons p ps ih =>
    cases ts with
    | nil => rfl
    | cons t ts => simp only [List.map_cons, okParams, param, h.var, ih]

theorem okF_ren {T T' : Typing} (h : TypingOn τ T T') (hi : Inj τ) (seen : List Key) (f : AFn) :
    okF T (seen.map τ) (fn τ f) = okF T' seen f := by
  have e1 : (fn τ f).k = τ f.k := rfl
  have e2 : (fn τ f).params = f.params.map (param τ) := rfl
  have e3 : (fn τ f).body = stmts τ f.body := rfl
  simp only [okF, e1, e2, e3, signatureOf_ren h hi, okParams_ren h, param_keys, okSs_ren h hi]

theorem okDs_ren {T T' : Typing} (h : TypingOn τ T T') (hi : Inj τ) (ds : List ADecl) (seen : List Key) :
    okDs T (seen.map τ) (ds.map (decl τ)) = okDs T' seen ds := by
  induction ds generalizing seen with
  | nil => rfl
  | cons d ds ih =>
    cases d with
    | const_ k cv x ty e =>
      have : seen.map τ ++ [τ k] = (seen ++ [k]).map τ := by simp
      simp only [List.map_cons, decl, okDs, okConst_ren h hi, this, ih]
    | staticAssert k cv e => simp only [List.map_cons, decl, okDs, valueE_ren h hi, ih]
    | function f => simp only [List.map_cons, decl, okDs, okF_ren h hi, ih]

theorem functionsIn_ren (ds : List ADecl) : functionsIn (ds.map (decl τ)) = (functionsIn ds).map (fn τ) := by
  simp only [functionsIn]
  induction ds with
  | nil => rfl
  | cons d ds ih =>
    simp only [List.map_cons, List.flatMap_cons, ih, List.map_append]
    cases d <;> rfl

theorem find_fn (hi : Inj τ) (fs : List AFn) (j : Key) :
    ((fs.map (fn τ)).find? fun f => f.k = τ j) = (fs.find? fun f => f.k = j).map (fn τ) := by
  induction fs with
  | nil => rfl
  | cons f fs ih =>
    have e : (fn τ f).k = τ f.k := rfl
    simp only [List.map_cons, List.find?_cons, e, hi.eq, ih]
    cases decide (f.k = j) <;> rfl

/-- Whether a program follows the rules does not depend on the addresses. -/
theorem wellTyped_ren (hi : Inj τ) {ds : List ADecl} (h : WellTyped (ds.map (decl τ))) : WellTyped ds := by
  obtain ⟨value, var, h⟩ := h
  refine ⟨fun k => value (τ k), fun k => var (τ k), ?_⟩
  rw [← h]
  refine (okDs_ren ?_ hi ds []).symm
  refine ⟨factsOf_ren hi ds value, fun _ => rfl, fun j => ?_⟩
  show ((functionsIn (ds.map (decl τ))).find? _) = _
  rw [functionsIn_ren, find_fn hi]

end Renumber

end Bms
