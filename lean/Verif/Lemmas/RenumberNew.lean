import Verif.Lemmas.RenumberPlain

/-!
# Trees that are made from texts have nothing but what is written, and addresses
-/

namespace Bms

open Spec

namespace Renumber

mutual

theorem newE : ∀ {t : Tree} {e : AExpr}, ExprIs t e → expr zero e = plainE e
  | _, _, .literal _ => by simp only [expr, plainE]
  | _, _, .id => by simp only [expr, plainE, Option.map_none]
  | _, _, .conversion h1 h2 => by simp only [expr, plainE, newE h1, newT h2]
  | _, _, .ite h1 h2 h3 => by simp only [expr, plainE, newE h1, newE h2, newE h3]
  | _, _, .binary _ h1 h2 => by simp only [expr, plainE, newE h1, newE h2]
  | _, _, .pre _ h1 => by simp only [expr, plainE, newE h1]
  | _, _, .call h => by simp only [expr, plainE, newEs h, Option.map_none]

theorem newT : ∀ {t : Tree} {e : AType}, TypeIs t e → type zero e = plainT e
  | _, _, .void => by simp only [type, plainT]
  | _, _, .bool => by simp only [type, plainT]
  | _, _, .int => by simp only [type, plainT]
  | _, _, .uint h => by simp only [type, plainT, newE h]

theorem newEs : ∀ {ts : List (Option Tree)} {es : List AExpr}, ExprsIs ts es → exprs zero es = plainEs es
  | _, _, .nil => by simp only [exprs, plainEs]
  | _, _, .cons h hs => by simp only [exprs, plainEs, newE h, newEs hs]

end

theorem newOE {t : Option Tree} {e : Option AExpr} (h : OptIs ExprIs t e) : e.map (expr zero) = e.map plainE := by
  cases h with
  | none => rfl
  | some h => simp only [Option.map_some, newE h]

theorem newOT {t : Option Tree} {e : Option AType} (h : OptIs TypeIs t e) : e.map (type zero) = e.map plainT := by
  cases h with
  | none => rfl
  | some h => simp only [Option.map_some, newT h]

mutual

theorem newS : ∀ {t : Tree} {e : AStmt}, StmtIs t e → stmt zero e = plainS e
  | _, _, .const_ h1 h2 => by simp only [stmt, plainS, newOT h1, newE h2]
  | _, _, .let_ h1 h2 => by simp only [stmt, plainS, newOT h1, newOE h2]
  | _, _, .staticAssert h => by simp only [stmt, plainS, newE h]
  | _, _, .ifThen h1 h2 => by simp only [stmt, plainS, newE h1, newS h2]
  | _, _, .ifElse h1 h2 h3 => by simp only [stmt, plainS, newE h1, newS h2, newS h3]
  | _, _, .while_ h1 h2 => by simp only [stmt, plainS, newE h1, newS h2]
  | _, _, .break_ => by simp only [stmt, plainS, Option.map_none]
  | _, _, .continue_ => by simp only [stmt, plainS, Option.map_none]
  | _, _, .return_ h => by simp only [stmt, plainS, newOE h]
  | _, _, .assign h => by simp only [stmt, plainS, newE h, Option.map_none]
  | _, _, .block h => by simp only [stmt, plainS, newSs h]
  | _, _, .call h => by simp only [stmt, plainS, expr, plainE, newEs h, Option.map_none]

theorem newSs : ∀ {ts : List (Option Tree)} {es : List AStmt}, StmtsIs ts es → stmts zero es = plainSs es
  | _, _, .nil => by simp only [stmts, plainSs]
  | _, _, .cons h hs => by simp only [stmts, plainSs, newS h, newSs hs]

end

theorem newPs {ts : List (Option Tree)} {ps : List AParam} (h : ParamsIs ts ps) :
    ps.map (param zero) = ps.map plainP := by
  induction h with
  | nil => rfl
  | cons h _ ih => simp only [List.map_cons, ih, param, plainP, newT h]

theorem newPl {t : Option Tree} {ps : List AParam} (h : ParamListIs t ps) :
    ps.map (param zero) = ps.map plainP := by
  cases h with
  | none => rfl
  | some h => exact newPs h

theorem newD {t : Tree} {d : ADecl} (h : DeclIs t d) : decl zero d = plainD d := by
  cases h with
  | const_ h1 h2 => simp only [decl, plainD, newOT h1, newE h2]
  | staticAssert h => simp only [decl, plainD, newE h]
  | function h =>
    cases h with
    | mk h1 h2 h3 h4 =>
      simp only [decl, plainD, fn, plainF, newPl h1, newT h2, newOE h3, newSs h4, List.map_nil]

theorem newDs {ts : List (Option Tree)} {ds : List ADecl} (h : DeclsIs ts ds) : ds.map (decl zero) = ds.map plainD := by
  induction h with
  | nil => rfl
  | cons h _ ih => simp only [List.map_cons, ih, newD h]

theorem newProgram {t : Tree} {ds : List ADecl} (h : ProgramIs t ds) : ds.map (decl zero) = ds.map plainD := by
  cases h with
  | mk h => exact newDs h

theorem lengthD {a b : ADecl} (h : plainD b = plainD a) : (nodeKeys b).length = (nodeKeys a).length :=
  same_length nodeKeys_plain h

theorem lengthDs : (a b : List ADecl) → b.map plainD = a.map plainD →
    (b.flatMap nodeKeys).length = (a.flatMap nodeKeys).length
  | [], b, h => by
    cases b with
    | nil => rfl
    | cons q b => simp only [List.map_cons, List.map_nil, reduceCtorEq] at h
  | p :: a, b, h => by
    cases b with
    | nil => simp only [List.map_cons, List.map_nil, reduceCtorEq] at h
    | cons q b =>
      simp only [List.map_cons, List.cons.injEq] at h
      simp only [List.flatMap_cons, List.length_append, lengthD h.1, lengthDs a b h.2]

theorem eqDs {τ : Key → Key} : (a b : List ADecl) → b.map plainD = a.map plainD →
    b.map (decl zero) = b.map plainD → a.map (decl zero) = a.map plainD →
    (a.flatMap nodeKeys).map τ = b.flatMap nodeKeys → b = a.map (decl τ)
  | [], b, h, h1, h2, hk => by
    cases b with
    | nil => rfl
    | cons q b => simp only [List.map_cons, List.map_nil, reduceCtorEq] at h
  | p :: a, b, h, h1, h2, hk => by
    cases b with
    | nil => simp only [List.map_cons, List.map_nil, reduceCtorEq] at h
    | cons q b =>
      simp only [List.map_cons, List.cons.injEq] at h h1 h2
      simp only [List.flatMap_cons] at hk
      obtain ⟨k1, k2⟩ := split_keys hk (lengthD h.1)
      simp only [List.map_cons, ← eqD (h1.1.trans h.1) h2.1 k1, ← eqDs a b h.2 h1.2 h2.2 k2]

/-- Trees with different addresses that are equal apart from these are renumbered trees. -/
theorem exists_eq {a b : List ADecl} (h : b.map plainD = a.map plainD) (h1 : b.map (decl zero) = b.map plainD)
    (h2 : a.map (decl zero) = a.map plainD) (hb : (b.flatMap nodeKeys).Nodup) (ha : (a.flatMap nodeKeys).Nodup) :
    ∃ τ, Inj τ ∧ b = a.map (decl τ) := by
  obtain ⟨τ, hi, hk⟩ := exists_renumbering (lengthDs _ _ h.symm) ha hb
  exact ⟨τ, hi, eqDs a b h h1 h2 hk⟩

/-! ## Signatures -/

mutual

theorem callFree_plain : (e : AExpr) → CallFree (plainE e) = CallFree e
  | .literal .. => by simp only [plainE, CallFree]
  | .id .. => by simp only [plainE, CallFree]
  | .conversion _ _ e ty => by simp only [plainE, CallFree, callFree_plain e, callFreeT_plain ty]
  | .ite _ _ l c r => by simp only [plainE, CallFree, callFree_plain l, callFree_plain c, callFree_plain r]
  | .binary _ _ _ l r => by simp only [plainE, CallFree, callFree_plain l, callFree_plain r]
  | .prefix _ _ _ e => by simp only [plainE, CallFree, callFree_plain e]
  | .call .. => by simp only [plainE, CallFree]

theorem callFreeT_plain : (ty : AType) → CallFreeT (plainT ty) = CallFreeT ty
  | .base .. => by simp only [plainT, CallFreeT]
  | .uint _ _ _ w => by simp only [plainT, CallFreeT, callFree_plain w]

end

/-! ## What is written does not depend on addresses -/

mutual

theorem plainE_ren (τ : Key → Key) : (e : AExpr) → plainE (expr τ e) = plainE e
  | .literal .. => by simp only [plainE, expr]
  | .id .. => by simp only [plainE, expr]
  | .conversion _ _ e ty => by simp only [plainE, expr, plainE_ren τ e, plainT_ren τ ty]
  | .ite _ _ l c r => by simp only [plainE, expr, plainE_ren τ l, plainE_ren τ c, plainE_ren τ r]
  | .binary _ _ _ l r => by simp only [plainE, expr, plainE_ren τ l, plainE_ren τ r]
  | .prefix _ _ _ e => by simp only [plainE, expr, plainE_ren τ e]
  | .call _ _ _ _ _ args => by simp only [plainE, expr, plainEs_ren τ args]

theorem plainT_ren (τ : Key → Key) : (ty : AType) → plainT (type τ ty) = plainT ty
  | .base .. => by simp only [plainT, type]
  | .uint _ _ _ w => by simp only [plainT, type, plainE_ren τ w]

theorem plainEs_ren (τ : Key → Key) : (es : List AExpr) → plainEs (exprs τ es) = plainEs es
  | [] => by simp only [plainEs, exprs]
  | e :: es => by simp only [plainEs, exprs, plainE_ren τ e, plainEs_ren τ es]

end

theorem plainO_ren {α : Type} {ren plain : α → α} (h : ∀ x, plain (ren x) = plain x) (o : Option α) :
    (o.map ren).map plain = o.map plain := by
  cases o <;> simp only [Option.map_none, Option.map_some, h]

mutual

theorem plainS_ren (τ : Key → Key) : (s : AStmt) → plainS (stmt τ s) = plainS s
  | .const_ .. => by simp only [plainS, stmt, plainO_ren (plainT_ren τ), plainE_ren]
  | .let_ .. => by simp only [plainS, stmt, plainO_ren (plainT_ren τ), plainO_ren (plainE_ren τ)]
  | .staticAssert .. => by simp only [plainS, stmt, plainE_ren]
  | .ifThen _ _ _ t => by simp only [plainS, stmt, plainE_ren, plainS_ren τ t]
  | .ifElse _ _ _ t e => by simp only [plainS, stmt, plainE_ren, plainS_ren τ t, plainS_ren τ e]
  | .while_ _ _ _ b => by simp only [plainS, stmt, plainE_ren, plainS_ren τ b]
  | .control .. => by simp only [plainS, stmt, plainO_ren (plainE_ren τ)]
  | .assign .. => by simp only [plainS, stmt, plainE_ren]
  | .block _ _ ss => by simp only [plainS, stmt, plainSs_ren τ ss]
  | .call e => by simp only [plainS, stmt, plainE_ren]

theorem plainSs_ren (τ : Key → Key) : (ss : List AStmt) → plainSs (stmts τ ss) = plainSs ss
  | [] => by simp only [plainSs, stmts]
  | s :: ss => by simp only [plainSs, stmts, plainS_ren τ s, plainSs_ren τ ss]

end

theorem plainD_ren (τ : Key → Key) (d : ADecl) : plainD (decl τ d) = plainD d := by
  cases d with
  | const_ => simp only [plainD, decl, plainO_ren (plainT_ren τ), plainE_ren]
  | staticAssert => simp only [plainD, decl, plainE_ren]
  | function f =>
    have : (f.params.map (param τ)).map plainP = f.params.map plainP := by
      rw [List.map_map]
      refine List.map_congr_left fun p _ => ?_
      simp only [Function.comp_apply, plainP, param, plainT_ren]
    simp only [plainD, decl, plainF, fn, this, plainT_ren, plainO_ren (plainE_ren τ), plainSs_ren]

end Renumber

end Bms
